import Mathlib.Data.Finset.Image
import Mathlib.Order.Interval.Finset.Basic
import Mathlib.Data.Int.Interval

/-!
Cachelines that a loop goes through.
-/

namespace Verif.Lines

/-- The cachelines of size `cl` with an address `off it` of an iteration from `a` up to but without `b`. -/
def touched (cl : Int) (off : Int → Int) (a b : Int) : Finset Int := (Finset.Ico a b).image fun it => off it / cl

end Verif.Lines
