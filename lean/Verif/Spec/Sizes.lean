import Verif.Model.Sizes

/-! What C140 compares and assumes. -/

namespace Verif.Sizes

open Verif.LayerCond Verif.Names Verif.Predict

variable {K : Type} [LinearOrder K]

/-- Both subscript lists fit into the array at the same time: in no dimension they are further apart than its extent. -/
def Within : List Int → List Int → List Int → Prop
  | d :: ds, x :: xs, y :: ys => x - y < d ∧ y - x < d ∧ Within ds xs ys
  | [], [], [] => True
  | _, _, _ => False

/-- All extents are at least as large. -/
def Extents (dims dims' : List Int) : Prop := List.Forall₂ (fun d d' => 0 ≤ d ∧ d ≤ d') dims dims'

/-- A larger problem: no extent shrinks, and the references of each array fit into it. -/
def Larger (ext : String → List Int) (arrays : List ArrRefs) : Prop :=
  ∀ a ∈ arrays, Extents a.dims (ext a.name) ∧ ∀ x ∈ a.accs, ∀ y ∈ a.accs, Within a.dims x y

/-- The same caches for two kernels; each lists the distances of its own kernel. -/
def SameSizes (w w' : Work K) : List (Cache K) → List (Cache K) → Prop :=
  List.Forall₂ fun c c' => IsTails w.ds c.tails ∧ IsTails w'.ds c'.tails ∧ c.size = c'.size

end Verif.Sizes
