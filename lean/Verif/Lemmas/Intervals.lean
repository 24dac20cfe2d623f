import Verif.Model.Intervals
import Mathlib.Tactic.Linarith
import Mathlib.Data.Set.Card
import Mathlib.Order.Interval.Finset.Nat
import Mathlib.Data.Int.Interval

namespace Verif.Intervals

/-- Structural form of the merge loop. -/
def walk : List Iv → List Iv
  | [] => []
  | [a] => [a]
  | a :: b :: rest =>
    if a.2 ≥ b.1 then (if a.2 < b.2 then (a.1, b.2) else a) :: walk rest
    else a :: walk (b :: rest)

theorem enforceNoOverlap_append (pre rest : List Iv) :
    enforceNoOverlap (pre ++ rest) pre.length = pre ++ walk rest := by
  induction hn : rest.length using Nat.strong_induction_on generalizing pre rest with
  | _ n ih =>
    rw [enforceNoOverlap]
    match rest, hn with
    | [], _ => simp [walk]
    | [a], _ => simp [walk]
    | a :: b :: rest, hn =>
      have hlen : pre.length + 1 < (pre ++ a :: b :: rest).length := by simp
      have e0 : (pre ++ a :: b :: rest)[pre.length] = a := by simp
      have e1 : (pre ++ a :: b :: rest)[pre.length + 1] = b := by
        rw [List.getElem_append_right (by omega)]; simp
      rw [dif_pos hlen]
      simp only [e0, e1]
      by_cases h : a.2 ≥ b.1
      · rw [if_pos h]
        have key : (enlarge (pre ++ a :: b :: rest) pre.length a b).eraseIdx (pre.length + 1)
            = (pre ++ [if a.2 < b.2 then (a.1, b.2) else a]) ++ rest := by
          unfold enlarge
          split
          · rw [List.set_append_right _ _ (le_refl _)]
            simp [List.eraseIdx_append_of_length_le]
          · simp [List.eraseIdx_append_of_length_le]
        rw [key]
        have := ih rest.length (by simp at hn; omega)
          (pre ++ [if a.2 < b.2 then (a.1, b.2) else a]) rest rfl
        simp only [List.length_append, List.length_singleton] at this
        rw [this]
        simp [walk, h]
      · rw [if_neg h]
        have := ih (b :: rest).length (by simp at hn ⊢; omega) (pre ++ [a]) (b :: rest) rfl
        simp only [List.length_append, List.length_singleton] at this
        rw [List.append_cons, this]
        simp [walk, h]

theorem enforceNoOverlap_zero (l : List Iv) : enforceNoOverlap l 0 = walk l := by
  simpa using enforceNoOverlap_append [] l

theorem mk_eq (args : List Iv) :
    mk args = walk (enforceOrder (args.filter (fun d => d.2 > d.1))) := by
  unfold mk; rw [enforceNoOverlap_zero]

theorem contains_iff (l : List Iv) (x : Int) :
    contains l x = true ↔ ∃ d ∈ l, d.1 ≤ x ∧ x < d.2 := by
  simp [contains]

theorem contains_cons (d : Iv) (l : List Iv) (x : Int) :
    contains (d :: l) x = true ↔ (d.1 ≤ x ∧ x < d.2) ∨ contains l x = true := by
  simp [contains]

theorem contains_walk (l : List Iv) (hs : l.Pairwise (fun a b => a.1 ≤ b.1)) (x : Int) :
    contains (walk l) x = true ↔ contains l x = true := by
  induction l using walk.induct with
  | case1 => simp [walk]
  | case2 => simp [walk]
  | case3 a b rest h ih =>
    have hab : a.1 ≤ b.1 := by
      simp only [List.pairwise_cons] at hs; exact hs.1 b (by simp)
    have hr : rest.Pairwise (fun a b => a.1 ≤ b.1) := by
      simp only [List.pairwise_cons] at hs; exact hs.2.2
    simp only [walk, h, if_true]
    rw [contains_cons, ih hr, contains_cons a, contains_cons b]
    split
    · constructor
      · rintro (⟨h1, h2⟩ | h1)
        · by_cases hx : x < a.2
          · exact Or.inl ⟨h1, hx⟩
          · exact Or.inr (Or.inl ⟨by omega, h2⟩)
        · exact Or.inr (Or.inr h1)
      · rintro (⟨h1, h2⟩ | ⟨h1, h2⟩ | h1)
        · exact Or.inl ⟨h1, by simp only; omega⟩
        · exact Or.inl ⟨by simp only; omega, h2⟩
        · exact Or.inr h1
    · constructor
      · rintro (h1 | h1)
        · exact Or.inl h1
        · exact Or.inr (Or.inr h1)
      · rintro (h1 | ⟨h1, h2⟩ | h1)
        · exact Or.inl h1
        · exact Or.inl ⟨by omega, by omega⟩
        · exact Or.inr h1
  | case4 a b rest h ih =>
    simp only [walk, h, if_false]
    rw [contains_cons, ih (List.Pairwise.of_cons hs), contains_cons a]

theorem enforceOrder_sorted (l : List Iv) :
    (enforceOrder l).Pairwise (fun a b => a.1 ≤ b.1) := by
  have : Std.Total (fun a b : Iv => a.1 ≤ b.1) := ⟨fun a b => by
    exact le_total a.1 b.1⟩
  have : IsTrans Iv (fun a b : Iv => a.1 ≤ b.1) := ⟨fun a b c h1 h2 => le_trans h1 h2⟩
  exact List.pairwise_insertionSort _ l

theorem enforceOrder_perm (l : List Iv) : (enforceOrder l).Perm l :=
  List.perm_insertionSort _ l

theorem mem_enforceOrder (l : List Iv) (d : Iv) : d ∈ enforceOrder l ↔ d ∈ l :=
  (enforceOrder_perm l).mem_iff

theorem contains_mk (args : List Iv) (x : Int) :
    contains (mk args) x = true ↔ ∃ d ∈ args, d.1 ≤ x ∧ x < d.2 := by
  rw [mk_eq, contains_walk _ (enforceOrder_sorted _), contains_iff]
  constructor
  · rintro ⟨d, hd, h⟩
    rw [mem_enforceOrder, List.mem_filter] at hd
    exact ⟨d, hd.1, h⟩
  · rintro ⟨d, hd, h⟩
    refine ⟨d, ?_, h⟩
    rw [mem_enforceOrder, List.mem_filter]
    exact ⟨hd, by simp; omega⟩

/-- The lower bounds of the merged list are a sublist of the given lower bounds. -/
theorem walk_lower_sublist (l : List Iv) : ((walk l).map (·.1)).Sublist (l.map (·.1)) := by
  induction l using walk.induct with
  | case1 => simp [walk]
  | case2 => simp [walk]
  | case3 a b rest h ih =>
    simp only [walk, h, if_true, List.map_cons]
    have : (if a.2 < b.2 then (a.1, b.2) else a).1 = a.1 := by split <;> rfl
    rw [this]
    exact (ih.trans (List.sublist_cons_self _ _)).cons_cons _
  | case4 a b rest h ih =>
    simp only [walk, h, if_false, List.map_cons]
    exact ih.cons_cons _

theorem walk_nonempty (l : List Iv) (hn : ∀ d ∈ l, d.1 < d.2) : ∀ d ∈ walk l, d.1 < d.2 := by
  induction l using walk.induct with
  | case1 => simp [walk]
  | case2 => simpa [walk] using hn
  | case3 a b rest h ih =>
    simp only [walk, h, if_true, List.mem_cons]
    rintro d (rfl | hd)
    · have := hn a (by simp)
      split
      · simp only; omega
      · exact this
    · exact ih (fun d hd => hn d (by simp [hd])) d hd
  | case4 a b rest h ih =>
    simp only [walk, h, if_false, List.mem_cons]
    rintro d (rfl | hd)
    · exact hn d (by simp)
    · exact ih (fun d hd => hn d (by simp at hd ⊢; tauto)) d hd

theorem mk_sorted (args : List Iv) : (mk args).Pairwise (fun a b => a.1 ≤ b.1) := by
  rw [mk_eq]
  have h := walk_lower_sublist (enforceOrder (args.filter (fun d => d.2 > d.1)))
  have h2 : ((enforceOrder (args.filter (fun d => d.2 > d.1))).map (·.1)).Pairwise (· ≤ ·) := by
    rw [List.pairwise_map]; exact enforceOrder_sorted _
  have h3 := h2.sublist h
  rwa [List.pairwise_map] at h3

theorem mk_nonempty (args : List Iv) : ∀ d ∈ mk args, d.1 < d.2 := by
  rw [mk_eq]
  apply walk_nonempty
  intro d hd
  rw [mem_enforceOrder, List.mem_filter] at hd
  simpa using hd.2

/-! ### counting -/

/-- The finite set of integers covered by a list of ranges. -/
def cover (l : List Iv) : Finset Int := l.foldr (fun d s => Finset.Ico d.1 d.2 ∪ s) ∅

theorem mem_cover (l : List Iv) (x : Int) : x ∈ cover l ↔ contains l x = true := by
  induction l with
  | nil => simp [cover, contains]
  | cons d l ih =>
    rw [contains_cons, ← ih]; simp [cover]

theorem ncard_eq_card_cover (l : List Iv) :
    Set.ncard {x : Int | contains l x = true} = (cover l).card := by
  rw [← Set.ncard_coe_finset]
  congr 1
  ext x; simp [mem_cover]

theorem card_cover_le (l : List Iv) (hn : ∀ d ∈ l, d.1 < d.2) :
    ((cover l).card : Int) ≤ len l := by
  induction l with
  | nil => simp [cover, len]
  | cons d l ih =>
    have h1 := ih (fun d hd => hn d (by simp [hd]))
    have h2 := Finset.card_union_le (Finset.Ico d.1 d.2) (cover l)
    have h3 : (cover (d :: l)) = Finset.Ico d.1 d.2 ∪ cover l := rfl
    have h4 : len (d :: l) = (d.2 - d.1) + len l := by simp [len]
    have h5 := hn d (by simp)
    rw [h3, h4]
    rw [Int.card_Ico] at h2
    omega

theorem card_cover_eq (l : List Iv) (hn : ∀ d ∈ l, d.1 < d.2)
    (hd : l.Pairwise (fun a b => a.2 ≤ b.1)) :
    ((cover l).card : Int) = len l := by
  induction l with
  | nil => simp [cover, len]
  | cons d l ih =>
    rw [List.pairwise_cons] at hd
    have h1 := ih (fun d hd => hn d (by simp [hd])) hd.2
    have h3 : (cover (d :: l)) = Finset.Ico d.1 d.2 ∪ cover l := rfl
    have h4 : len (d :: l) = (d.2 - d.1) + len l := by simp [len]
    have h5 := hn d (by simp)
    have hdis : Disjoint (Finset.Ico d.1 d.2) (cover l) := by
      rw [Finset.disjoint_left]
      intro x hx hx2
      rw [mem_cover, contains_iff] at hx2
      obtain ⟨e, he, h6, h7⟩ := hx2
      have := hd.1 e he
      simp at hx
      omega
    rw [h3, h4, Finset.card_union_of_disjoint hdis, Int.card_Ico]
    push_cast
    omega

/-! ### heap version -/

def walkH (h : Heap) : List Nat → Heap × List Nat
  | [] => (h, [])
  | [a] => (h, [a])
  | a :: b :: rest =>
    if (h a).2 ≥ (h b).1 then
      let r := walkH (if (h a).2 < (h b).2 then setUpper h a (h b).2 else h) rest
      (r.1, a :: r.2)
    else
      let r := walkH h (b :: rest)
      (r.1, a :: r.2)

theorem enforceNoOverlapH_append (h : Heap) (pre rest : List Nat) :
    enforceNoOverlapH h (pre ++ rest) pre.length = ((walkH h rest).1, pre ++ (walkH h rest).2) := by
  induction hn : rest.length using Nat.strong_induction_on generalizing h pre rest with
  | _ n ih =>
    rw [enforceNoOverlapH]
    match rest, hn with
    | [], _ => simp [walkH]
    | [a], _ => simp [walkH]
    | a :: b :: rest, hn =>
      have hlen : pre.length + 1 < (pre ++ a :: b :: rest).length := by simp
      have e0 : (pre ++ a :: b :: rest)[pre.length] = a := by simp
      have e1 : (pre ++ a :: b :: rest)[pre.length + 1] = b := by
        rw [List.getElem_append_right (by omega)]; simp
      rw [dif_pos hlen]
      simp only [e0, e1]
      by_cases hc : (h a).2 ≥ (h b).1
      · rw [if_pos hc]
        have key : (pre ++ a :: b :: rest).eraseIdx (pre.length + 1) = (pre ++ [a]) ++ rest := by
          simp [List.eraseIdx_append_of_length_le]
        rw [key]
        have := ih rest.length (by simp at hn; omega)
          (if (h a).2 < (h b).2 then setUpper h a (h b).2 else h) (pre ++ [a]) rest rfl
        simp only [List.length_append, List.length_singleton] at this
        rw [this]
        simp [walkH, hc]
      · rw [if_neg hc]
        have := ih (b :: rest).length (by simp at hn ⊢; omega) h (pre ++ [a]) (b :: rest) rfl
        simp only [List.length_append, List.length_singleton] at this
        rw [List.append_cons, this]
        simp [walkH, hc]

theorem enforceNoOverlapH_zero (h : Heap) (l : List Nat) :
    enforceNoOverlapH h l 0 = walkH h l := by
  simpa using enforceNoOverlapH_append h [] l

theorem containsH_iff (h : Heap) (l : List Nat) (x : Int) :
    containsH h l x = true ↔ ∃ r ∈ l, (h r).1 ≤ x ∧ x < (h r).2 := by
  simp [containsH, contains]

theorem setUpper_lower (h : Heap) (r : Nat) (v : Int) (q : Nat) :
    (setUpper h r v q).1 = (h q).1 := by
  unfold setUpper; split
  · subst_vars; rfl
  · rfl

/-- Lower bounds never change. -/
theorem walkH_lower (h : Heap) (l : List Nat) (q : Nat) : ((walkH h l).1 q).1 = (h q).1 := by
  induction h, l using walkH.induct with
  | case1 => simp [walkH]
  | case2 => simp [walkH]
  | case3 h a b rest hc ih =>
    simp only [walkH, hc, if_true]
    rw [ih]; split
    · exact setUpper_lower ..
    · rfl
  | case4 h a b rest hc ih =>
    simp only [walkH, hc, if_false]
    exact ih

theorem walkH_upper (h : Heap) (l : List Nat) (q : Nat) : (h q).2 ≤ ((walkH h l).1 q).2 := by
  induction h, l using walkH.induct with
  | case1 => simp [walkH]
  | case2 => simp [walkH]
  | case3 h a b rest hc ih =>
    simp only [walkH, hc, if_true]
    refine le_trans ?_ ih
    split
    · unfold setUpper
      split
      · subst_vars; simp only; omega
      · exact le_refl _
    · exact le_refl _
  | case4 h a b rest hc ih =>
    simp only [walkH, hc, if_false]
    exact ih

theorem walkH_refs (h : Heap) (l : List Nat) : (walkH h l).2.Sublist l := by
  induction h, l using walkH.induct with
  | case1 => simp [walkH]
  | case2 => simp [walkH]
  | case3 h a b rest hc ih =>
    simp only [walkH, hc, if_true]
    exact (ih.trans (List.sublist_cons_self _ _)).cons_cons _
  | case4 h a b rest hc ih =>
    simp only [walkH, hc, if_false]
    exact ih.cons_cons _

/-- Membership over an arbitrary surrounding set of references is preserved by the walk. -/
theorem walkH_mem (h : Heap) (pre l : List Nat)
    (hs : l.Pairwise (fun a b => (h a).1 ≤ (h b).1)) (x : Int) :
    containsH (walkH h l).1 (pre ++ (walkH h l).2) x = true ↔ containsH h (pre ++ l) x = true := by
  induction h, l using walkH.induct generalizing pre with
  | case1 => simp [walkH]
  | case2 => simp [walkH]
  | case3 h a b rest hc ih =>
    rw [List.pairwise_cons] at hs
    have hab := hs.1 b (by simp)
    have hr := (List.pairwise_cons.1 hs.2).2
    simp only [walkH, hc, if_true]
    have low : ∀ q, ((if (h a).2 < (h b).2 then setUpper h a (h b).2 else h) q).1 = (h q).1 := by
      intro q; split
      · exact setUpper_lower ..
      · rfl
    have := ih (pre ++ [a]) (by simpa [low] using hr)
    rw [List.append_cons, this, containsH_iff, containsH_iff]
    by_cases hlt : (h a).2 < (h b).2
    · simp only [hlt, if_true]
      constructor
      · rintro ⟨r, hr1, hr2, hr3⟩
        rw [setUpper_lower] at hr2
        by_cases hra : r = a
        · subst hra
          simp only [setUpper, if_true] at hr3
          by_cases hx : x < (h r).2
          · exact ⟨r, by simp, hr2, hx⟩
          · exact ⟨b, by simp, by omega, hr3⟩
        · simp only [setUpper, hra, if_false] at hr3
          refine ⟨r, ?_, hr2, hr3⟩
          simp at hr1 ⊢; tauto
      · rintro ⟨r, hr1, hr2, hr3⟩
        by_cases hrb : r = b ∨ r = a
        · refine ⟨a, by simp, ?_, ?_⟩
          · rw [setUpper_lower]; rcases hrb with rfl | rfl <;> omega
          · simp only [setUpper, if_true]; rcases hrb with rfl | rfl <;> omega
        · refine ⟨r, ?_, ?_, ?_⟩
          · simp at hr1 ⊢; tauto
          · rw [setUpper_lower]; exact hr2
          · simp only [setUpper]; rw [if_neg (by tauto)]; exact hr3
    · simp only [hlt, if_false]
      constructor
      · rintro ⟨r, hr1, hr2, hr3⟩
        exact ⟨r, by simp at hr1 ⊢; tauto, hr2, hr3⟩
      · rintro ⟨r, hr1, hr2, hr3⟩
        by_cases hrb : r = b
        · subst hrb; exact ⟨a, by simp, by omega, by omega⟩
        · exact ⟨r, by simp at hr1 ⊢; tauto, hr2, hr3⟩
  | case4 h a b rest hc ih =>
    simp only [walkH, hc, if_false]
    rw [List.append_cons, ih (pre ++ [a]) (List.Pairwise.of_cons hs)]
    simp

/-- If no range reaches into or touches a later, longer one, the heap stays as it is. -/
theorem walkH_heap_eq (h : Heap) (l : List Nat)
    (hs : l.Pairwise (fun a b => (h a).1 ≤ (h b).1))
    (hno : ∀ p ∈ l, ∀ q ∈ l, ¬ ((h p).1 ≤ (h q).1 ∧ (h q).1 ≤ (h p).2 ∧ (h p).2 < (h q).2)) :
    (walkH h l).1 = h := by
  induction h, l using walkH.induct with
  | case1 => simp [walkH]
  | case2 => simp [walkH]
  | case3 h a b rest hc ih =>
    rw [List.pairwise_cons] at hs
    have hab := hs.1 b (by simp)
    have hr := (List.pairwise_cons.1 hs.2).2
    have hlt : ¬ (h a).2 < (h b).2 := fun hlt => hno a (by simp) b (by simp) ⟨hab, hc, hlt⟩
    simp only [hlt, if_false] at ih
    simp only [walkH, hc, if_true, hlt, if_false]
    exact ih hr (fun p hp q hq => hno p (by simp [hp]) q (by simp [hq]))
  | case4 h a b rest hc ih =>
    simp only [walkH, hc, if_false]
    exact ih (List.Pairwise.of_cons hs)
      (fun p hp q hq => hno p (List.mem_cons_of_mem _ hp) q (List.mem_cons_of_mem _ hq))

theorem enforceOrderH_sorted (h : Heap) (l : List Nat) :
    (enforceOrderH h l).Pairwise (fun a b => (h a).1 ≤ (h b).1) := by
  have : Std.Total (fun a b : Nat => (h a).1 ≤ (h b).1) := ⟨fun a b => by
    exact le_total _ _⟩
  have : IsTrans Nat (fun a b : Nat => (h a).1 ≤ (h b).1) := ⟨fun a b c h1 h2 => le_trans h1 h2⟩
  exact List.pairwise_insertionSort _ l

theorem mem_enforceOrderH (h : Heap) (l : List Nat) (r : Nat) :
    r ∈ enforceOrderH h l ↔ r ∈ l :=
  (List.perm_insertionSort _ l).mem_iff

theorem andH_mem (h : Heap) (a b : List Nat) (x : Int) :
    containsH (andH h a b).1 (andH h a b).2 x = true ↔
      containsH h a x = true ∨ containsH h b x = true := by
  unfold andH
  simp only [enforceNoOverlapH_zero]
  have := walkH_mem h [] _ (enforceOrderH_sorted h ((a ++ b).filter (fun r => (h r).2 > (h r).1))) x
  simp only [List.nil_append] at this
  rw [this]
  simp only [containsH_iff, mem_enforceOrderH, List.mem_filter, List.mem_append]
  constructor
  · rintro ⟨r, ⟨hr | hr, _⟩, h2⟩
    · exact Or.inl ⟨r, hr, h2⟩
    · exact Or.inr ⟨r, hr, h2⟩
  · rintro (⟨r, hr, h2⟩ | ⟨r, hr, h2⟩)
    · exact ⟨r, ⟨Or.inl hr, by simp; omega⟩, h2⟩
    · exact ⟨r, ⟨Or.inr hr, by simp; omega⟩, h2⟩

end Verif.Intervals
