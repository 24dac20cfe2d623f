import Verif.Model.Sim
import Mathlib.Data.Rat.Defs

/-!
Results of the cache simulation (`cacheprediction.py:547-548`, `625`, `639-640`, `681-728`): counts of the simulator over the measured
iterations, divided by the number of cachelines of work. The counts are an argument. Floats are rationals.
-/

namespace Verif.SimResult

open Verif.Sim

/-- Lines 547-548 and 625: `first_dim_factor` of the measured range; `bytesPerIt` is `Kernel.bytes_per_iteration`. -/
def firstDimFactor (s : Setup) (bytesPerIt : Int) (range : Int × Int) : ℚ :=
  ((range.2 - range.1 : Int) : ℚ) / ((s.cachelineSize : ℚ) / bytesPerIt)

/-- Counts of the simulator for a level of the hierarchy (lines and bytes are alike). -/
structure Counts where
  load : Nat
  hit : Nat
  miss : Nat
  store : Nat
  evict : Nat

/-- Lines 681-704: `get_loads` and the others, for `levels` levels in the machine file. -/
def perLine (stats : List Counts) (levels : Nat) (factor : ℚ) (count : Counts → Nat) : Except String (List ℚ) :=
  (List.range levels).mapM fun l =>
    match stats[l]? with
    | none => .error "IndexError"
    | some c => if factor = 0 then .error "ZeroDivisionError" else .ok ((count c : ℚ) / factor)

/-- The measured range and the results, if `counts` is what the simulator counts over a range after a warm-up. -/
def run (s : Setup) (bytesPerIt : Int) (levels : Nat) (counts : List (Int × Int) → Int × Int → List Counts) (count : Counts → Nat) :
    Option ((Int × Int) × Except String (List ℚ)) :=
  (simulate s 100).map fun r => (r.2, perLine (counts r.1 r.2) levels (firstDimFactor s bytesPerIt r.2) count)

end Verif.SimResult
