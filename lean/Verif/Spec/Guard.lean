import Mathlib.Algebra.Order.Ring.Rat

/-!
Conditions for benchmarks: clocks and definitions.
-/

namespace Verif.Guard

/-- A clock of `x` GHz is within one percent of the expected clock in Hz. -/
def ClockFits (x expected : ℚ) : Prop := 99 * expected ≤ 100 * (x * 10 ^ 9) ∧ 100 * (x * 10 ^ 9) ≤ 101 * expected

/-- A metric is defined: the placeholder of generated machine descriptions (`machinemodel.py:101-150`) is not in it. -/
def Complete (metric : List Char) : Prop := ¬ "INFORMATION_REQUIRED".toList <:+: metric

end Verif.Guard
