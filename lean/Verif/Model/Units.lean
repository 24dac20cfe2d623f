import Mathlib.Algebra.Order.Floor.Ring
import Mathlib.Data.Rat.Floor

/-!
Model of `kerncraft/prefixedunit.py`. Values are rational numbers; `inf` and rounding of floats are not modelled.
-/

namespace Verif.Units

/-- Lines 8-9: `PREFIXES` in its order; prefixes are strings of at most one character. -/
def prefixes : List (List Char × ℚ) :=
  [(['k'], 10 ^ 3), (['M'], 10 ^ 6), (['G'], 10 ^ 9), (['T'], 10 ^ 13), (['P'], 10 ^ 16), (['E'], 10 ^ 19),
   (['Z'], 10 ^ 21), (['Y'], 10 ^ 24), ([], 1)]

/-- `PREFIXES[prefix]` -/
def factor? (p : List Char) : Option ℚ := prefixes.lookup p

/-- A quantity. -/
structure Unit where
  value : ℚ
  pre : List Char
  unit : List Char
deriving DecidableEq

/-- Line 46: the three-argument constructor. -/
def mk3 (v : ℚ) (p u : List Char) : Except String Unit :=
  match factor? p with
  | none => .error "AssertionError"
  | some _ => .ok ⟨v, p, u⟩

/-- `[kMGTP]` -/
def isPrefixChar (c : Char) : Bool := c = 'k' || c = 'M' || c = 'G' || c = 'T' || c = 'P'

/-- `(.+)$` at the start of a string: the characters up to a newline, which may only be the last character. -/
def matchUnit (s : List Char) : Option (List Char) :=
  let u := s.takeWhile (· != '\n')
  let rest := s.dropWhile (· != '\n')
  if u = [] then none else if rest = [] ∨ rest = ['\n'] then some u else none

/-- Lines 37-41: `^(?P<prefix>[kMGTP])?(?P<unit>.+)$`, the prefix first. -/
def splitUnit (s : List Char) : Option (List Char × List Char) :=
  match s with
  | c :: rest =>
    if isPrefixChar c then
      match matchUnit rest with
      | some u => some ([c], u)
      | none => (matchUnit s).map fun u => ([], u)
    else (matchUnit s).map fun u => ([], u)
  | [] => none

/-- Lines 36-47: the two-argument constructor. -/
def mk2 (v : ℚ) (s : List Char) : Except String Unit :=
  match splitUnit s with
  | none => .error "AssertionError"
  | some (p, u) => mk3 v p u

/-- Factor of the prefix of a quantity; the constructor has checked that it exists. -/
def Unit.factor (q : Unit) : ℚ := (factor? q.pre).getD 1

/-- Lines 49-51 `base_value`. -/
def Unit.base (q : Unit) : ℚ := q.value * q.factor

/-- Python's `round` with two digits: half to even. -/
def round2 (x : ℚ) : ℚ :=
  let y := x * 100
  let f := ⌊y⌋
  let r : Int := if y - f < 1 / 2 then f else if 1 / 2 < y - f then f + 1 else if f % 2 = 0 then f else f + 1
  r / 100

/-- Lines 73-91: does the loop take the prefix with factor `v`, if `current` is the factor chosen so far? -/
def goodFor (base maxError v current : ℚ) : Bool :=
  !decide (base * maxError < |round2 (base / v) * v - base|) && !decide (|round2 (base / v)| < 9 / 10) &&
    !decide (v < current)

/-- Lines 58-91 `good_prefix` with `min_prefix=''`, `max_prefix=None`, `round_length=2`. -/
def goodPrefix (base maxError : ℚ) : List Char :=
  (prefixes.foldl (fun (g : List Char × ℚ) kv => if goodFor base maxError kv.2 g.2 then kv else g) ([], 1)).1

/-- Lines 93-95 `with_prefix`; an unknown prefix is a KeyError. -/
def withPrefix (q : Unit) (p : List Char) : Except String Unit :=
  match factor? p with
  | none => .error "KeyError"
  | some f => mk3 (q.base / f) p q.unit

/-- Lines 97-98 `reduced`. -/
def reduced (q : Unit) : Except String Unit := withPrefix q (goodPrefix q.base 0)

/-- Construction with two arguments, then `reduced`. -/
def build (v : ℚ) (u : List Char) : Except String Unit :=
  match mk2 v u with
  | .error e => .error e
  | .ok q => reduced q

/-- The other operand: a quantity or a plain number. -/
inductive Operand where
  | unit (q : Unit)
  | num (x : ℚ)

/-- `float(other)` -/
def Operand.base : Operand → ℚ
  | .unit q => q.base
  | .num x => x

/-- Lines 111-118 `__mul__`. -/
def mul (a : Unit) (b : Operand) : Except String Unit :=
  build (a.base * b.base) (match b with | .unit q => a.unit ++ q.unit | .num _ => a.unit)

/-- Lines 120-127 `__truediv__`. -/
def div (a : Unit) (b : Operand) : Except String Unit :=
  if b.base = 0 then .error "ZeroDivisionError"
  else build (a.base / b.base) (match b with | .unit q => a.unit ++ '/' :: q.unit | .num _ => a.unit)

/-- Lines 131-138 `__floordiv__`. -/
def floordiv (a : Unit) (b : Operand) : Except String Unit :=
  if b.base = 0 then .error "ZeroDivisionError"
  else build ⌊a.base / b.base⌋ (match b with | .unit q => a.unit ++ '/' :: q.unit | .num _ => a.unit)

/-- Unit of a sum, difference or remainder. -/
def commonUnit (a : Unit) (b : Operand) : Option (List Char) :=
  match b with
  | .unit q => if a.unit = q.unit then some a.unit else none
  | .num _ => some a.unit

/-- Lines 156-166 `__add__`. -/
def add (a : Unit) (b : Operand) : Except String Unit :=
  match commonUnit a b with
  | none => .error "ValueError"
  | some u => build (a.base + b.base) u

/-- Lines 140-150 `__sub__`. -/
def sub (a : Unit) (b : Operand) : Except String Unit :=
  match commonUnit a b with
  | none => .error "ValueError"
  | some u => build (a.base - b.base) u

/-- Lines 168-178 `__mod__`: Python's remainder has the sign of the divisor. -/
def mod (a : Unit) (b : Operand) : Except String Unit :=
  match commonUnit a b with
  | none => .error "ValueError"
  | some u =>
    if b.base = 0 then .error "ZeroDivisionError"
    else build (a.base - ⌊a.base / b.base⌋ * b.base) u

/-- Lines 152-154 `__abs__`. -/
def abs (a : Unit) : Except String Unit := build |a.base| a.unit

end Verif.Units
