import Verif.Spec.Freshness
import Mathlib.Order.Basic
import Mathlib.Tactic.Common
import Mathlib.Algebra.Order.Ring.Int

/-!
Lemmas on the reuse of intermediate files.
-/

namespace Verif.Freshness

theorem current_spec {α : Type} {h : History α} (hc : Chronological h) {τ : Int} {v : Version α} (hv : h.current τ = some v) :
    v ∈ h ∧ v.since ≤ τ ∧ ∀ v' ∈ h, v'.since ≤ τ → v'.since ≤ v.since := by
  obtain ⟨l, hl⟩ := List.getLast?_eq_some_iff.1 hv
  have hm : v ∈ h.filter fun v => decide (v.since ≤ τ) := by rw [hl]; simp
  rw [List.mem_filter, decide_eq_true_eq] at hm
  refine ⟨hm.1, hm.2, ?_⟩
  intro v' hv' ht
  have hm' : v' ∈ h.filter fun v => decide (v.since ≤ τ) := List.mem_filter.2 ⟨hv', by simpa using ht⟩
  have hp : (h.filter fun v => decide (v.since ≤ τ)).Pairwise fun v v' => v.since < v'.since := hc.filter _
  rw [hl] at hm' hp
  rcases List.mem_append.1 hm' with hm' | hm'
  · exact le_of_lt ((List.pairwise_append.1 hp).2.2 v' hm' v (by simp))
  · simp only [List.mem_singleton] at hm'
    rw [hm']

theorem current_some {α : Type} {h : History α} {τ : Int} (hv : ∃ v ∈ h, v.since ≤ τ) : ∃ v, h.current τ = some v := by
  obtain ⟨v, hv, ht⟩ := hv
  cases hc : h.current τ with
  | some w => exact ⟨w, rfl⟩
  | none =>
    rw [History.current, List.getLast?_eq_none_iff] at hc
    have : v ∈ h.filter fun v => decide (v.since ≤ τ) := List.mem_filter.2 ⟨hv, by simpa using ht⟩
    rw [hc] at this
    simp at this

/-- A version that is older than the result is the one that was read. -/
theorem unchanged {α : Type} {h : History α} (hc : Chronological h) (hh : Honest h) {r w τ : Int} (hr : r ≤ τ) (hq : Quiet h r w) {v : Version α}
    (hv : h.current τ = some v) (hs : v.stamp < w) (x : α) : Content h r x ↔ Content h τ x := by
  obtain ⟨h1, h2, h3⟩ := current_spec hc hv
  have hvr : v.since ≤ r := by
    by_contra hlt
    have h4 := hq v h1 (not_le.1 hlt)
    have h5 := hh v h1
    omega
  constructor
  · rintro ⟨u, hu, rfl, hur, hmax⟩
    refine ⟨u, hu, rfl, le_trans hur hr, ?_⟩
    intro v' hv' ht
    exact le_trans (h3 v' hv' ht) (hmax v h1 hvr)
  · rintro ⟨u, hu, rfl, hut, hmax⟩
    refine ⟨u, hu, rfl, le_trans (h3 u hu hut) hvr, ?_⟩
    intro v' hv' ht
    exact hmax v' hv' (le_trans ht hr)

theorem foldl_le {V : Type} (package : List (History V)) (first m : Int) :
    m ≤ package.foldl (fun m h => match h.current first with
      | some v => max m v.stamp
      | none => m) m := by
  induction package generalizing m with
  | nil => exact le_refl m
  | cons h hs ih =>
    rw [List.foldl_cons]
    refine le_trans ?_ (ih _)
    split
    · exact le_max_left _ _
    · exact le_refl _

theorem packageStamp_ge {V : Type} (package : List (History V)) (first m : Int) {h : History V} (hm : h ∈ package) {v : Version V} (hv : h.current first = some v) :
    v.stamp ≤ package.foldl (fun m h => match h.current first with
      | some v => max m v.stamp
      | none => m) m := by
  induction package generalizing m with
  | nil => simp at hm
  | cons h' hs ih =>
    rw [List.foldl_cons]
    rcases List.mem_cons.1 hm with rfl | hm
    · refine le_trans ?_ (foldl_le hs first _)
      rw [hv]
      exact le_max_right _ _
    · exact ih _ hm

theorem packageStamp_lt {V : Type} (package : List (History V)) (first m w : Int) (hm : m < w)
    (h : ∀ h ∈ package, ∀ v, History.current h first = some v → v.stamp < w) :
    package.foldl (fun m h => match h.current first with
      | some v => max m v.stamp
      | none => m) m < w := by
  induction package generalizing m with
  | nil => exact hm
  | cons h' hs ih =>
    rw [List.foldl_cons]
    apply ih
    · split
      · rename_i v hv
        exact max_lt hm (h h' (by simp) v hv)
      · exact hm
    · exact fun h1 h2 => h h1 (by simp [h2])

end Verif.Freshness
