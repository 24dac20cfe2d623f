import Verif.Model.DistKey
import Mathlib.Algebra.Order.Ring.Int

/-!
Values of polynomials under an assignment of numbers to the symbols.
-/

namespace Verif.Spec

open Verif.DistKey

/-- Product of powers; the symbols are numbered from `i`. -/
def powers (σ : Nat → Int) : Nat → List Nat → Int
  | _, [] => 1
  | i, e :: es => σ i ^ e * powers σ (i + 1) es

/-- Value of a polynomial. -/
def value (σ : Nat → Int) : Poly → Int
  | [] => 0
  | (c, es) :: p => c * powers σ 0 es + value σ p

end Verif.Spec
