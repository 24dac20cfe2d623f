import Verif.Spec.Plot

/-!
The plot of the roofline: roofline-plot.py.

Numbers are rational (floats in the code), a generator is the list of what it yields, `none` if it does not end within `fuel` steps.
-/

namespace Verif.Plot

/-- roofline-plot.py lines 10-14: `frange` -/
def frange : Nat → ℚ → ℚ → ℚ → Option (List ℚ)
  | 0, _, _, _ => none
  | fuel + 1, f, stop, step =>
    if f < stop then (frange fuel (f + step) stop step).map (fun l => (f + step) :: l) else some []

/-- roofline-plot.py lines 54-56: the points of the line, `lo` and `hi` being the least and the greatest tick of the axis -/
def line (fuel : Nat) (lo hi step bw peak : ℚ) : Option (List (ℚ × ℚ)) :=
  (frange fuel lo hi step).map fun xs => xs.map fun x => (x, min (bw * x) peak)

end Verif.Plot
