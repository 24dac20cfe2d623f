import Verif.Model.Units

/-!
Model of the comparisons of `kerncraft/prefixedunit.py:180-206`. Values are rational numbers, `nan` is not modelled.
-/

namespace Verif.Units

/-- The other operand: something `float` takes, a text which is no number, or anything else. -/
inductive Other where
  | num (o : Operand)
  | text
  | object

/-- `float(other)`: texts raise a ValueError, other objects a TypeError. -/
def Other.float : Other → Except String ℚ
  | .num o => .ok o.base
  | .text => .error "ValueError"
  | .object => .error "TypeError"

/-- Lines 180-181 `__lt__`. -/
def lt (a : Unit) (b : Other) : Except String Bool := b.float.map fun y => decide (a.base < y)

/-- Lines 183-184 `__gt__`. -/
def gt (a : Unit) (b : Other) : Except String Bool := b.float.map fun y => decide (y < a.base)

/-- Lines 192-193 `__le__`. -/
def le (a : Unit) (b : Other) : Except String Bool := b.float.map fun y => decide (a.base ≤ y)

/-- Lines 195-196 `__ge__`. -/
def ge (a : Unit) (b : Other) : Except String Bool := b.float.map fun y => decide (y ≤ a.base)

/-- Lines 186-190 `__eq__`: only a TypeError is caught. -/
def eq (a : Unit) (b : Other) : Except String Bool :=
  match b.float with
  | .ok y => .ok (decide (a.base = y))
  | .error e => if e = "TypeError" then .ok false else .error e

/-- Lines 198-202 `__ne__`. -/
def ne (a : Unit) (b : Other) : Except String Bool :=
  match b.float with
  | .ok y => .ok (decide (a.base ≠ y))
  | .error e => if e = "TypeError" then .ok true else .error e

end Verif.Units
