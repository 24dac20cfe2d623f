import Verif.Model.Names

/-!
The input of the layer conditions for a kernel whose extents contain constants (`cacheprediction.py:353-478`, `285-291`):
expressions and their sort keys are found from the symbolic distances, values after the constants are substituted.
-/

namespace Verif.Sizes

open Verif.LayerCond Verif.Names Verif.Predict

variable {K : Type} [LinearOrder K]

/-- The kernel for other values of its constants: each array gets the extents `ext name`. -/
def resize (ext : String → List Int) (a : ArrRefs) : ArrRefs := { a with dims := ext a.name }

/-- The finite distances in elements. -/
def finite (arrays : List ArrRefs) : List Int := (allDistances arrays).filterMap id

/-- Lines 398-415: distances in bytes, each with its expression and sort key (in the order of the distances). -/
def symWork (exprs : List (Nat × K)) (elSize : Int) (arrays : List ArrRefs) : Work K where
  ds := List.zipWith (fun e d => ⟨e.1, e.2, d * elSize⟩) exprs (finite arrays)
  nInf := (allDistances arrays).countP Option.isNone
  nDest := (destinations arrays).length
  sumSizes := (arrays.map fun a => Layout.arraySize a.dims * elSize).sum

/-- Distances of a kernel with literal extents: the sort key of an integer is its absolute value (lines 46-48). -/
def number (b : Int) : Dist Nat := ⟨b.natAbs, b.natAbs, b⟩

end Verif.Sizes
