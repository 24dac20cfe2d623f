import Verif.Spec.Dialect

/-!
In which syntax x86 assembly is read when it is marked and when it is analysed (`incore_model.py:581-614`, `644-645`, `701-725`, `749-753`,
`815`). Only the isa `x86` is modelled, others have one syntax. The library is a parameter. It reads a file line by line and fails if one of
the lines cannot be read; the chosen block depends on the lines and how they are read. Versions are lists of numbers.
-/

namespace Verif.Dialect

/-- Comparison of tuples, `a >= b`. -/
def atLeast : List Nat → List Nat → Bool
  | _, [] => true
  | [], _ :: _ => false
  | a :: as, b :: bs => if a = b then atLeast as bs else decide (b < a)

/-- Lines 584, 604, 705: the version of the library knows both syntaxes. -/
def both (v : List Nat) : Bool := atLeast v [0, 7, 0]

/-- `parse_file` of a parser for a syntax: a result is the syntax in which the lines were read. -/
def parseFile {L : Type} (lib : Library L) (d : Dialect) (code : List L) : Except String Dialect :=
  if code.all (lib.reads d) then .ok d else .error "cannot be parsed"

/-- Lines 581-599 `parse_asm` -/
def parseAsm {L : Type} (v : List Nat) (lib : Library L) (code : List L) : Except String Dialect :=
  if both v then
    match parseFile lib .intel code with
    | .ok d => .ok d
    | .error _ => parseFile lib .att code
  else parseFile lib lib.default code

/-- Lines 602-614 `detect_x86_syntax` -/
def detect {L : Type} (v : List Nat) (lib : Library L) (code : List L) : Except String Dialect :=
  if both v then
    match parseFile lib .intel code with
    | .ok _ => .ok .intel
    | .error _ =>
      match parseFile lib .att code with
      | .ok _ => .ok .att
      | .error e => .error e
  else .ok .att

/-- Lines 705-714 `get_marker`: the syntax is named only if the library knows both. -/
def markerIn {L : Type} (v : List Nat) (lib : Library L) (d : Dialect) : Dialect := if both v then d else lib.default

/-- Lines 644-725 of `asm_instrumentation`: `choose` gives begin and end of the block. -/
def mark {L : Type} (v : List Nat) (lib : Library L) (choose : Dialect → List L → Except String (Nat × Nat)) (code : List L) :
    Except String (List L) :=
  match parseAsm v lib code with
  | .error e => .error e
  | .ok d =>
    match choose d code with
    | .error e => .error e
    | .ok (b, e) =>
      match detect v lib code with
      | .error e => .error e
      | .ok s =>
        .ok (code.take b ++ lib.start (markerIn v lib s) ++ (code.take e).drop b ++ lib.stop (markerIn v lib s) ++ code.drop e)

/-- Lines 751-753 of `osaca_analyse_instrumented_assembly`: no syntax is named. -/
def osaca {L : Type} (lib : Library L) (marked : List L) : Except String Dialect := parseFile lib lib.default marked

/-- Line 815 of `llvm_mca_analyse_instrumented_assembly` -/
def llvmMca {L : Type} (v : List Nat) (lib : Library L) (marked : List L) : Except String Dialect := parseAsm v lib marked

end Verif.Dialect
