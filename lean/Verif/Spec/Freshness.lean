import Verif.Model.Freshness

/-!
Contents of files over time.
-/

namespace Verif.Freshness

/-- The file has this content at a time: that of the last version before. -/
def Content {α : Type} (h : History α) (τ : Int) (x : α) : Prop :=
  ∃ v ∈ h, v.content = x ∧ v.since ≤ τ ∧ ∀ v' ∈ h, v'.since ≤ τ → v'.since ≤ v.since

/-- Versions follow each other. -/
def Chronological {α : Type} (h : History α) : Prop := h.Pairwise fun v v' => v.since < v'.since

/-- Time stamps are not before the time at which the file got there. -/
def Honest {α : Type} (h : History α) : Prop := ∀ v ∈ h, v.since ≤ v.stamp

/-- The file was not changed after `r` until `w`. -/
def Quiet {α : Type} (h : History α) (r w : Int) : Prop := ∀ v ∈ h, r < v.since → w < v.since

end Verif.Freshness
