import Mathlib.Data.Rat.Cast.Order
import Mathlib.Algebra.Order.Ring.Rat

/-!
Specification for C166: when a number may be written in a multiple of its unit.
-/

namespace Verif.Spec

/-- `z` is the integer nearest to `x`, the even one if there are two. -/
def Nearest (z : ℤ) (x : ℚ) : Prop := |z - x| < 1 / 2 ∨ (|z - x| = 1 / 2 ∧ Even z)

/-- `base` may be written as a multiple of `f` with two decimals: the relative error is at most `e`, and what is
written is at least 0.9. -/
def Fits (base e f : ℚ) : Prop :=
  ∃ z : ℤ, Nearest z (base / f * 100) ∧ |z / 100 * f - base| ≤ e * |base| ∧ 9 / 10 ≤ |(z : ℚ) / 100|

end Verif.Spec
