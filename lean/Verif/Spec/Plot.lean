import Mathlib.Data.Rat.Defs
import Mathlib.Algebra.Order.Ring.Rat
import Mathlib.Tactic.Linarith

/-!
Samples of a range of numbers, for C164.
-/

namespace Verif.Plot

/-- `l` samples the range from `start`, which belongs to it, to `stop`, which does not, every `step`. -/
def Sampled (start stop step : ℚ) (l : List ℚ) : Prop :=
  ∃ n : Nat, (∀ k : Nat, k < n ↔ start + k * step < stop) ∧ l = (List.range n).map fun (k : Nat) => start + k * step

/-- What the roofline model allows with the intensity `x`: the transfer of data and the peak both limit the performance, nothing else does. -/
def Roof (bw peak x y : ℚ) : Prop := y ≤ bw * x ∧ y ≤ peak ∧ (y = bw * x ∨ y = peak)

end Verif.Plot
