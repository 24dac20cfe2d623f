import Mathlib.Data.List.Forall2
import Mathlib.Algebra.BigOperators.Group.List.Basic

/-!
Specification of C arrays, independent of the model: an `n`-dimensional array is an array of
`(n-1)`-dimensional arrays stored contiguously.
-/

namespace Verif.Spec

/-- Number of elements of a (multi-dimensional) C array. -/
def cElems : List Int → Int
  | [] => 1
  | d :: ds => d * cElems ds

/-- Position of element `a[i][j]...` counted in elements from the start of the array. -/
def cIndex : List Int → List Int → Int
  | _ :: ds, a :: as => a * cElems ds + cIndex ds as
  | _, _ => 0

/-- All subscripts are within the declared extents. -/
def InRange (dims access : List Int) : Prop := List.Forall₂ (fun d a => 0 ≤ a ∧ a < d) dims access

end Verif.Spec
