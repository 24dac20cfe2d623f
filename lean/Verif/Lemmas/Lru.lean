import Verif.Spec.Lru
import Mathlib.Data.Finset.Card
import Mathlib.Data.List.Nodup
import Mathlib.Data.Finset.Dedup
import Mathlib.Data.List.Dedup
import Mathlib.Data.List.TakeWhile

namespace Verif.Spec
variable {α : Type} [DecidableEq α]

/-- Elements of a trace by recency of their last access. -/
def recency (trace : List α) : List α := trace.foldl (fun r x => x :: r.erase x) []

theorem recency_snoc (t : List α) (x : α) : recency (t ++ [x]) = x :: (recency t).erase x := by
  simp [recency]

theorem recency_nodup (t : List α) : (recency t).Nodup := by
  induction t using List.reverseRecOn with
  | nil => simp [recency]
  | append_singleton t x ih =>
    rw [recency_snoc, List.nodup_cons]
    exact ⟨ih.not_mem_erase, ih.erase x⟩

theorem mem_recency (t : List α) (x : α) : x ∈ recency t ↔ x ∈ t := by
  induction t using List.reverseRecOn with
  | nil => simp [recency]
  | append_singleton t y ih =>
    rw [recency_snoc]
    by_cases h : x = y
    · simp [h]
    · rw [List.mem_cons, List.mem_erase_of_ne h, ih]; simp [h]

theorem take_cons_erase (r : List α) (hr : r.Nodup) (x : α) (c : Nat) :
    (x :: (r.take c).erase x).take c = (x :: r.erase x).take c := by
  cases c with
  | zero => simp
  | succ c =>
    rw [List.take_succ_cons, List.take_succ_cons]
    congr 1
    induction r generalizing c with
    | nil => simp
    | cons y r ih =>
      rw [List.take_succ_cons]
      by_cases h : y = x
      · subst h
        simp
      · rw [List.erase_cons_tail (by simpa using h), List.erase_cons_tail (by simpa using h)]
        cases c with
        | zero => simp
        | succ c =>
          rw [List.take_succ_cons, List.take_succ_cons, ih (List.nodup_cons.1 hr).2]

theorem lruRun_eq (cap : Nat) (t : List α) : lruRun cap t = (recency t).take cap := by
  induction t using List.reverseRecOn with
  | nil => simp [lruRun, recency]
  | append_singleton t x ih =>
    rw [recency_snoc, ← take_cons_erase _ (recency_nodup t), ← ih]
    simp [lruRun, lruAccess]

theorem recency_append (s t : List α) :
    recency (s ++ t) = recency t ++ (recency s).filter (fun y => y ∉ t) := by
  induction t using List.reverseRecOn with
  | nil => simp [recency]
  | append_singleton t x ih =>
    rw [← List.append_assoc, recency_snoc, recency_snoc, ih, List.cons_append]
    congr 1
    by_cases hx : x ∈ t
    · have hx' : x ∈ recency t := (mem_recency t x).2 hx
      rw [List.erase_append_left _ hx']
      congr 1
      apply List.filter_congr
      intro y _
      by_cases hy : y = x
      · subst hy; simp [hx]
      · simp [hy]
    · have hx' : x ∉ recency t := fun h => hx ((mem_recency t x).1 h)
      rw [List.erase_append_right _ hx', List.erase_of_not_mem hx']
      congr 1
      rw [List.Nodup.erase_eq_filter ((recency_nodup s).filter _), List.filter_filter]
      apply List.filter_congr
      intro y _
      by_cases hy : y = x
      · subst hy; simp
      · simp [hy]

theorem length_recency (t : List α) : (recency t).length = t.toFinset.card := by
  rw [← List.toFinset_card_of_nodup (recency_nodup t)]
  congr 1
  ext x
  simp [mem_recency]

/-- LRU stack distance: after `s ++ [x] ++ t` with `x` not in `t`, `x` is cached iff fewer than `cap`
distinct elements occur in `t`. -/
theorem mem_lruRun (cap : Nat) (s t : List α) (x : α) (hx : x ∉ t) :
    x ∈ lruRun cap (s ++ [x] ++ t) ↔ t.toFinset.card < cap := by
  rw [lruRun_eq, recency_append, recency_snoc, ← length_recency t]
  have hx' : x ∉ recency t := fun h => hx ((mem_recency t x).1 h)
  rw [List.filter_cons_of_pos (by simpa using hx)]
  constructor
  · intro h
    by_contra hc
    rw [List.take_append_of_le_length (by omega)] at h
    exact hx' (List.mem_of_mem_take h)
  · intro h
    rw [List.take_append]
    apply List.mem_append_right
    obtain ⟨k, hk⟩ : ∃ k, cap - (recency t).length = k + 1 := ⟨cap - (recency t).length - 1, by omega⟩
    rw [hk, List.take_succ_cons]
    simp

/-- Split a list at the last occurrence of an element. -/
theorem exists_last (l : List α) (x : α) (h : x ∈ l) : ∃ s t, l = s ++ [x] ++ t ∧ x ∉ t := by
  induction l using List.reverseRecOn with
  | nil => simp at h
  | append_singleton l y ih =>
    by_cases hy : x = y
    · subst hy; exact ⟨l, [], by simp, by simp⟩
    · have : x ∈ l := by simpa [hy] using h
      obtain ⟨s, t, he, ht⟩ := ih this
      exact ⟨s, t ++ [y], by rw [he]; simp, by simp [ht, hy]⟩

/-- If everything accessed since some occurrence of `x` lies in a set of at most `cap` elements, `x` is
cached. -/
theorem hit_of_window (cap : Nat) (pre win : List α) (x : α) (W : Finset α) (hx : x ∈ win)
    (hW : ∀ y ∈ win, y ∈ W) (hc : W.card ≤ cap) : x ∈ lruRun cap (pre ++ win) := by
  obtain ⟨s, t, rfl, ht⟩ := exists_last win x hx
  rw [← List.append_assoc, ← List.append_assoc, mem_lruRun cap (pre ++ s) t x ht]
  have h1 : t.toFinset ⊆ W.erase x := by
    intro y hy
    have hy' : y ∈ t := by simpa using hy
    exact Finset.mem_erase.2 ⟨fun e => ht (e ▸ hy'), hW y (by simp [hy'])⟩
  have h2 := Finset.card_le_card h1
  have h3 : x ∈ W := hW x (by simp)
  have h4 := Finset.card_erase_lt_of_mem h3
  omega

end Verif.Spec
