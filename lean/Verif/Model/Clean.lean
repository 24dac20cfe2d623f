import Verif.Model.Text

/-!
Model of `clean_code` in `kerncraft/pycparser_utils.py`.
-/

namespace Verif.Clean

open Verif.Text

/-! ### Python slices -/

/-- A slice bound: negative numbers count from the end, everything is clamped to the length. -/
def bound (n : Nat) (i : Int) : Nat := if i < 0 then (i + n).toNat else min i.toNat n

/-- `s[a:b]` -/
def slice (s : List Char) (a b : Int) : List Char := (s.take (bound s.length b)).drop (bound s.length a)

/-- `s[:b]` -/
def sliceTo (s : List Char) (b : Int) : List Char := s.take (bound s.length b)

/-- `s[a:]` -/
def sliceFrom (s : List Char) (a : Int) : List Char := s.drop (bound s.length a)

/-- `s.find('\n', a)` -/
def findNl (s : List Char) (a : Int) : Int :=
  match (sliceFrom s a).findIdx? (· = '\n') with
  | none => -1
  | some i => ((bound s.length a + i : Nat) : Int)

/-! ### Macros and pragmas -/

/-- `l.startswith(p)` -/
def startsWith (p l : List Char) : Bool := p.isPrefixOf l

/-- `l.endswith('\\')` -/
def endsBackslash (l : List Char) : Bool := l.getLast? == some '\\'

/-- Lines 25-33: the loop over the lines, with `in_macro` and `in_pragma`. -/
def cleanLines (macros pragmas : Bool) : Bool → Bool → List (List Char) → List (List Char)
  | _, _, [] => []
  | inMacro, inPragma, line :: rest =>
    let l := strip line
    let isMacro := macros && ((startsWith ['#'] l && !startsWith "#pragma".toList l) || inMacro)
    let isPragma := pragmas && (startsWith "#pragma".toList l || inPragma)
    (if isMacro || isPragma then [] else line) ::
      cleanLines macros pragmas (if isMacro then endsBackslash l else inMacro)
        (if isPragma then endsBackslash l else inPragma) rest

/-- Lines 21-34. -/
def cleanMacros (macros pragmas : Bool) (code : List Char) : List Char :=
  if macros || pragmas then joinNl (cleanLines macros pragmas false false (splitNl code)) else code

/-! ### Comments -/

/-- Variables of lines 37-38. -/
structure St where
  code : List Char
  idx : Int
  start : Option Int
deriving DecidableEq

/-- Lines 40-52: one pass of the loop body. -/
def step (s : St) : St :=
  let w := slice s.code s.idx (s.idx + 2)
  match s.start with
  | none =>
    if w = ['/', '/'] then
      let e := findNl s.code s.idx
      { s with code := sliceTo s.code s.idx ++ sliceFrom s.code e, idx := s.idx - (e - s.idx) + 1 }
    else if w = ['/', '*'] then { s with start := some s.idx, idx := s.idx + 1 }
    else { s with idx := s.idx + 1 }
  | some c =>
    if w = ['*', '/'] then
      { code := sliceTo s.code c ++ List.replicate ((slice s.code c s.idx).count '\n') '\n' ++ sliceFrom s.code (s.idx + 2),
        idx := s.idx - (s.idx - c) + 1, start := none }
    else { s with idx := s.idx + 1 }

/-- Lines 39-52: the loop; `none` if the fuel is used up. -/
def loop : Nat → St → Option (List Char)
  | 0, _ => none
  | fuel + 1, s => if s.idx < (s.code.length : Int) - 1 then loop fuel (step s) else some s.code

/-- Lines 9-54 `clean_code`. -/
def cleanCode (fuel : Nat) (comments macros pragmas : Bool) (code : List Char) : Option (List Char) :=
  let code := cleanMacros macros pragmas code
  if comments then loop fuel ⟨code, 0, none⟩ else some code

end Verif.Clean
