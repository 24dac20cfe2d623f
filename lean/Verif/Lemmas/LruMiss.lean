import Verif.Lemmas.Lru
import Verif.Lemmas.Sizes
import Verif.Props.LayerCond

/-! Lemmas for C141: windows contain at least as many elements as the requirement says. -/

namespace Verif.LayerCond

open Verif.Spec

theorem not_mem_lruRun {α : Type} [DecidableEq α] (cap : Nat) (t : List α) (x : α) (h : x ∉ t) : x ∉ lruRun cap t := by
  rw [lruRun_eq]
  exact fun hx => h ((mem_recency t x).1 (List.mem_of_mem_take hx))

/-- If at least `cap` distinct elements other than `x` were accessed since `x` was, it is not cached. -/
theorem miss_of_window {α : Type} [DecidableEq α] (cap : Nat) (pre win : List α) (x : α) (hx : x ∉ win) (W : Finset α)
    (hW : ∀ y ∈ W, y ∈ win) (hc : cap ≤ W.card) : x ∉ lruRun cap (pre ++ win) := by
  by_cases hp : x ∈ pre
  · obtain ⟨s, t, rfl, ht⟩ := exists_last pre x hp
    rw [List.append_assoc, mem_lruRun cap s (t ++ win) x (by simp [ht, hx])]
    have h1 : W ⊆ (t ++ win).toFinset := fun y hy => by simp [hW y hy]
    have h2 := Finset.card_le_card h1
    omega
  · exact not_mem_lruRun cap _ x (by simp [hp, hx])

theorem card_touched_ge (len : Nat) (starts : List Int) (h : starts.Pairwise (fun a b => b ≤ a)) (hne : starts ≠ []) :
    len + ((gaps starts).map (fun d => min d (len : Int))).sum ≤ ((touched len starts).card : Int) := by
  induction starts using gaps.induct with
  | case2 l h' =>
    match l, h', hne with
    | [], _, hne => exact absurd rfl hne
    | [a], _, _ => simp [touched, gaps]
    | a :: b :: l, h, _ => exact absurd rfl (h a b l)
  | case1 a b l ih =>
    have hab : b ≤ a := (List.pairwise_cons.1 h).1 b (by simp)
    have ih' := ih (List.pairwise_cons.1 h).2 (by simp)
    rw [gaps, List.map_cons, List.sum_cons]
    have hle : ∀ o ∈ b :: l, o ≤ b := by
      intro o ho
      rcases List.mem_cons.1 ho with rfl | ho
      · exact le_refl _
      · exact (List.pairwise_cons.1 (List.pairwise_cons.1 h).2).1 o ho
    have hdis : Disjoint (touched len (b :: l)) (Finset.Ico (max a (b + len)) (a + len)) := by
      rw [Finset.disjoint_left]
      intro x hx hx'
      rw [mem_touched] at hx
      rw [Finset.mem_Ico] at hx'
      obtain ⟨o, ho, h1, h2⟩ := hx
      have := hle o ho
      omega
    have hsub : touched len (b :: l) ∪ Finset.Ico (max a (b + len)) (a + len) ⊆ touched len (a :: b :: l) := by
      intro x hx
      rw [Finset.mem_union, mem_touched, Finset.mem_Ico] at hx
      rw [mem_touched]
      rcases hx with ⟨o, ho, h1, h2⟩ | ⟨h1, h2⟩
      · exact ⟨o, List.mem_cons_of_mem _ ho, h1, h2⟩
      · exact ⟨a, by simp, by omega, h2⟩
    have hc := Finset.card_le_card hsub
    rw [Finset.card_union_of_disjoint hdis, Int.card_Ico] at hc
    have : min (a - b) (len : Int) ≤ ((a + len - max a (b + len)).toNat : Int) := by omega
    omega

theorem gaps_shift (c : Int) (l : List Int) : gaps (l.map (c + ·)) = gaps l := by
  induction l using gaps.induct with
  | case2 l h' =>
    match l, h' with
    | [], _ => simp [gaps]
    | [a], _ => simp [gaps]
    | a :: b :: l, h => exact absurd rfl (h a b l)
  | case1 a b l ih =>
    simp only [List.map_cons, gaps, List.cons.injEq] at ih ⊢
    exact ⟨by omega, ih⟩

theorem card_window_ge (arrays : List (List Int)) (c : Int) (len : Nat) (hne : ∀ offs ∈ arrays, offs ≠ [])
    (hdec : ∀ offs ∈ arrays, offs.Pairwise (fun a b => b ≤ a)) :
    len * arrays.length + ((arrays.flatMap gaps).map (fun d => min d (len : Int))).sum ≤
      ((window arrays (fun _ o => c + o) len).card : Int) := by
  have h1 : ∑ k ∈ Finset.range arrays.length, ((len : Int) + ((gaps (arrays.getD k [])).map (fun d => min d (len : Int))).sum) ≤
      ((window arrays (fun _ o => c + o) len).card : Int) := by
    unfold window
    rw [Finset.card_biUnion, Nat.cast_sum]
    · apply Finset.sum_le_sum
      intro k hk
      have hlt : k < arrays.length := by simpa using hk
      have hgd : arrays.getD k [] = arrays[k] := by
        rw [List.getD_eq_getElem?_getD, List.getElem?_eq_getElem hlt]; rfl
      rw [hgd, Finset.card_image_of_injective _ (fun a b h => by simpa using h), ← gaps_shift c]
      refine card_touched_ge len _ ?_ (by simpa using hne _ (List.getElem_mem hlt))
      rw [List.pairwise_map]
      exact (hdec _ (List.getElem_mem hlt)).imp fun h => by omega
    · intro i _ j _ hij
      simp only [Function.onFun]
      rw [Finset.disjoint_left]
      intro x hx hx'
      rw [Finset.mem_image] at hx hx'
      obtain ⟨_, _, rfl⟩ := hx
      obtain ⟨_, _, he⟩ := hx'
      exact hij (congrArg Prod.fst he).symm
  refine le_trans (le_of_eq ?_) h1
  rw [sum_range_getD (fun l => (len : Int) + ((gaps l).map (fun d => min d (len : Int))).sum)]
  clear h1 hne hdec
  induction arrays with
  | nil => simp
  | cons a l ih =>
    rw [List.map_cons, List.sum_cons, ← ih, List.flatMap_cons, List.map_append, List.sum_append, List.length_cons]
    push_cast
    ring

/-- The requirement of a distance of `g` elements, and the window of one iteration less. -/
theorem requirement_less (s : Int) (hs : 0 < s) (l : List Int) (hl : ∀ x ∈ l, 0 ≤ x) (n : Nat) (g : Int) (hg : 0 < g) :
    requirement ((l.map (s * ·)).map Sizes.number) n (Sizes.number (s * g)) =
      s * ((l.map fun x => min x (g - 1)).sum + (g - 1) * n) +
      s * ((l.filter fun x => decide (g ≤ x)).length + n : Nat) := by
  rw [Sizes.requirement_min _ (by
    intro x hx
    obtain ⟨y, hy, rfl⟩ := List.mem_map.1 hx
    exact Int.mul_nonneg hs.le (hl y hy)) n _ (Int.mul_nonneg hs.le hg.le)]
  have key : ((l.map (s * ·)).map fun x => min x (s * g)).sum =
      s * ((l.map fun x => min x (g - 1)).sum + ((l.filter fun x => decide (g ≤ x)).length : Int)) := by
    clear hl
    induction l with
    | nil => simp
    | cons x l ih =>
      simp only [List.map_cons, List.sum_cons, List.filter_cons] at ih ⊢
      rw [ih]
      have hm : min (s * x) (s * g) = s * min x g := by
        rcases le_total x g with h | h
        · rw [min_eq_left h, min_eq_left (mul_le_mul_of_nonneg_left h hs.le)]
        · rw [min_eq_right h, min_eq_right (mul_le_mul_of_nonneg_left h hs.le)]
      rw [hm]
      by_cases h : g ≤ x
      · simp only [h, decide_true, if_true, List.length_cons]
        rw [show min x g = g by omega, show min x (g - 1) = g - 1 by omega]
        push_cast
        ring
      · simp only [h, decide_false, Bool.false_eq_true, if_false]
        rw [show min x g = x by omega, show min x (g - 1) = x by omega]
        ring
  rw [key]
  push_cast
  ring

theorem flatMap_gaps_nonneg (arrays : List (List Int)) (h : ∀ offs ∈ arrays, offs.Pairwise (fun a b => b ≤ a)) :
    ∀ g ∈ arrays.flatMap gaps, 0 ≤ g := by
  intro g hg
  obtain ⟨offs, h1, h2⟩ := List.mem_flatMap.1 hg
  exact gaps_nonneg offs (h offs h1) g h2

theorem stencilDists_eq (s : Int) (arrays : List (List Int)) :
    stencilDists s arrays = ((arrays.flatMap gaps).map (s * ·)).map Sizes.number := by
  rw [List.map_map]
  rfl

end Verif.LayerCond
