import Mathlib.Algebra.Order.Field.Rat
import Mathlib.Algebra.BigOperators.Group.Multiset.Basic

/-!
Model of `canonical_relational` (`kerncraft/cacheprediction.py:184-213`). Sympy's own rewriting (line 194: `rel.canonical.simplify().expand()`), the
common factor and the signs it finds are parameters. Both sides are sums of products of symbols with rational coefficients.
-/

namespace Verif.Relational

/-- A sum of terms: coefficient and product of symbols. -/
abbrev Sum := List (ℚ × Multiset String)

inductive Op where
  | lt | le | gt | ge | eq | ne
deriving DecidableEq, Repr

structure Rel where
  lhs : Sum
  rhs : Sum
  op : Op

/-- Line 200: `lhs.as_coeff_add()[0]`, the number in the sum. -/
def number (s : Sum) : ℚ := ((s.filter fun t => t.2 = 0).map (·.1)).sum

/-- Terms with symbols. -/
def symbolic (s : Sum) : Sum := s.filter fun t => t.2 ≠ 0

/-- Lines 200-202: the number is moved to the right side. -/
def move (r : Rel) : Rel := ⟨symbolic r.lhs, r.rhs ++ [(-number r.lhs, 0)], r.op⟩

/-- Multiply a sum by a number. -/
def scale (x : ℚ) (s : Sum) : Sum := s.map fun t => (x * t.1, t.2)

/-- Lines 205-208: division by the common factor, which sympy finds in the difference of both sides. -/
def divide (gcd : ℚ) (r : Rel) : Rel :=
  if gcd = 1 then r else ⟨scale (1 / max gcd (-gcd)) r.lhs, scale (1 / max gcd (-gcd)) r.rhs, r.op⟩

/-- Operator after both sides have changed their sign. -/
def Op.reversed : Op → Op
  | .lt => .gt | .le => .ge | .gt => .lt | .ge => .le | .eq => .eq | .ne => .ne

/-- `reversedsign` -/
def reversedSign (r : Rel) : Rel := ⟨scale (-1) r.lhs, scale (-1) r.rhs, r.op.reversed⟩

/-- Line 211: `rhs < 0`. With symbols sympy may know the sign (`sign`), otherwise it is a TypeError. -/
def isNegative (sign : Sum → Option Bool) (s : Sum) : Except String Bool :=
  if s.all fun t => t.2 = 0 then .ok (decide (number s < 0))
  else match sign s with
    | some b => .ok b
    | none => .error "TypeError"

/-- Lines 199-213. `gcd` and `sign` are what sympy finds for the two sides. -/
def canonical (gcd : Sum → Sum → ℚ) (sign : Sum → Option Bool) (r : Rel) : Except String Rel := do
  let m := move r
  let d := divide (gcd m.lhs m.rhs) m
  let b ← isNegative sign d.rhs
  .ok (if b then reversedSign d else d)

/-- A truth value or a relation. -/
inductive Cond where
  | truth (b : Bool)
  | rel (r : Rel)

/-- Lines 184-213. If sympy's rewriting (line 194) ends with a truth value, it has no `lhs` (line 195). -/
def canonicalRelational (rewrite : Rel → Cond) (gcd : Sum → Sum → ℚ) (sign : Sum → Option Bool) : Cond → Except String Cond
  | .truth b => .ok (.truth b)
  | .rel r => match rewrite r with
    | .truth _ => .error "AttributeError"
    | .rel q => (canonical gcd sign q).map .rel

end Verif.Relational
