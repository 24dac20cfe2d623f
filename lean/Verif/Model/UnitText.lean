import Verif.Model.Units
import Verif.Model.Text

/-!
Model of the text form of quantities (`kerncraft/prefixedunit.py:25-35`, `100-105`), which is also the form in machine
files (17-23). Values are rational numbers; rounding to two decimals is exact (half to even).
-/

namespace Verif.Units

open Verif.Text

/-! ### Writing -/

/-- A value in hundredths, rounded half to even. -/
def hundredths (x : ℚ) : Int :=
  let y := x * 100
  let f := ⌊y⌋
  if y - f < 1 / 2 then f else if 1 / 2 < y - f then f + 1 else if f % 2 = 0 then f else f + 1

/-- `'{:.2f}'.format(x)` -/
def showFixed (x : ℚ) : List Char :=
  let n := (hundredths x).natAbs
  (if x < 0 then ['-'] else []) ++ showNat (n / 100) ++ ['.', digitChar (n / 10 % 10), digitChar (n % 10)]

/-- Line 103: `'{0:.2f} {1}{2}'.format(value, prefix, unit).strip()`. -/
def showPlain (q : Unit) : List Char := strip (showFixed q.value ++ ' ' :: (q.pre ++ q.unit))

/-- Lines 100-105 `__str__`, with a bound on the recursion. -/
def str : Nat → Unit → Option (List Char)
  | 0, _ => none
  | n + 1, q =>
    let g := goodPrefix q.base (1 / 100)
    if q.pre = g then some (showPlain q)
    else match withPrefix q g with
      | .ok r => str n r
      | .error _ => none

/-! ### Reading -/

/-- `float` of digits. -/
def natOf (ds : List Char) : Nat := ds.foldl (fun n c => 10 * n + (c.toNat - 48)) 0

/-- `[0-9]+(?:\.[0-9]+)? ` at the start: value and rest. Backtracking cannot help, the next character decides. -/
def readNumber (s : List Char) : Option (ℚ × List Char) :=
  let a := s.takeWhile isDigit
  if a = [] then none
  else match s.dropWhile isDigit with
    | ' ' :: r => some (natOf a, r)
    | '.' :: r =>
      let b := r.takeWhile isDigit
      match r.dropWhile isDigit with
      | ' ' :: r' => if b = [] then none else some (natOf a + natOf b / 10 ^ b.length, r')
      | _ => none
    | _ => none

/-- `([kMGTP])?(.*)$`: prefix and unit. -/
def readUnit (s : List Char) : Option (List Char × List Char) :=
  let tail (s : List Char) : Option (List Char) :=
    let u := s.takeWhile (· != '\n')
    let r := s.dropWhile (· != '\n')
    if r = [] ∨ r = ['\n'] then some u else none
  match s with
  | c :: r => if isPrefixChar c then (tail r).map fun u => ([c], u) else (tail s).map fun u => ([], u)
  | [] => some ([], [])

/-- Result of reading; `inf` is an allowed value. -/
inductive Parsed
  | fin (q : Unit)
  | inf (pre unit : List Char)
deriving DecidableEq

/-- Lines 26-33 and 45-46: the constructor with one string. -/
def read (s : List Char) : Except String Parsed :=
  match readNumber s with
  | some (v, r) =>
    match readUnit r with
    | some (p, u) => (mk3 v p u).map .fin
    | none => .error "AssertionError"
  | none =>
    match s with
    | 'i' :: 'n' :: 'f' :: ' ' :: r =>
      match readUnit r with
      | some (p, u) => .ok (.inf p u)
      | none => .error "AssertionError"
    | _ => .error "AssertionError"

end Verif.Units
