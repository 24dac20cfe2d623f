import Verif.Lemmas.Intervals

namespace Verif.Intervals

/-- Nonempty ranges with a gap between neighbours. -/
def Canon (l : List Iv) : Prop := (∀ d ∈ l, d.1 < d.2) ∧ l.Pairwise (fun a b => a.2 < b.1)

theorem Canon.tail {a : Iv} {l : List Iv} (h : Canon (a :: l)) : Canon l :=
  ⟨fun d hd => h.1 d (by simp [hd]), h.2.of_cons⟩

/-- Members of the head of a list with gaps. -/
theorem canon_head {a : Iv} {l : List Iv} (h : Canon (a :: l)) (x : Int) :
    (x < a.2 → (contains (a :: l) x = true ↔ a.1 ≤ x)) ∧ contains (a :: l) a.2 = false ∧
      (a.2 ≤ x → (contains (a :: l) x = true ↔ contains l x = true)) ∧ (x ≤ a.2 → contains l x = false) := by
  have hl : ∀ y, y ≤ a.2 → contains l y = false := by
    intro y hy
    rw [Bool.eq_false_iff]
    intro hc
    obtain ⟨d, hd, h1, h2⟩ := (contains_iff l y).1 hc
    have := (List.pairwise_cons.1 h.2).1 d hd
    omega
  refine ⟨fun hx => ?_, ?_, fun hx => ?_, hl x⟩
  · rw [contains_cons, hl x (by omega)]
    simp; omega
  · rw [Bool.eq_false_iff]
    rw [ne_eq, contains_cons, hl a.2 (by omega)]
    simp
  · rw [contains_cons]
    constructor
    · rintro (h1 | h1)
      · omega
      · exact h1
    · exact Or.inr

/-- Lists with gaps are determined by their members. -/
theorem canon_unique : (l l' : List Iv) → Canon l → Canon l' → (∀ x, contains l x = contains l' x) → l = l'
  | [], [], _, _, _ => rfl
  | [], b :: l', _, h', h => by
    have h1 := ((canon_head h' b.1).1 (h'.1 b (by simp))).2 le_rfl
    rw [← h] at h1
    simp [contains] at h1
  | a :: l, [], h', _, h => by
    have h1 := ((canon_head h' a.1).1 (h'.1 a (by simp))).2 le_rfl
    rw [h] at h1
    simp [contains] at h1
  | a :: l, b :: l', ha, hb, h => by
    have hna := ha.1 a (by simp)
    have hnb := hb.1 b (by simp)
    have a1 := ((canon_head ha a.1).1 hna).2 le_rfl
    have b1 := ((canon_head hb b.1).1 hnb).2 le_rfl
    have key : a.1 = b.1 := by
      rcases lt_trichotomy a.1 b.1 with hlt | he | hgt
      · rw [h] at a1
        have := ((canon_head hb a.1).1 (by omega)).1 a1
        omega
      · exact he
      · rw [← h] at b1
        have := ((canon_head ha b.1).1 (by omega)).1 b1
        omega
    have key2 : a.2 = b.2 := by
      rcases lt_trichotomy a.2 b.2 with hlt | he | hgt
      · have h1 := (canon_head ha a.2).2.1
        rw [h] at h1
        have := ((canon_head hb a.2).1 hlt).2 (by omega)
        simp [this] at h1
      · exact he
      · have h1 := (canon_head hb b.2).2.1
        rw [← h] at h1
        have := ((canon_head ha b.2).1 hgt).2 (by omega)
        simp [this] at h1
    have he : a = b := Prod.ext key key2
    have ht : l = l' := by
      apply canon_unique l l' ha.tail hb.tail
      intro x
      rcases le_total x a.2 with hx | hx
      · rw [(canon_head ha x).2.2.2 hx, (canon_head hb x).2.2.2 (by omega)]
      · rw [Bool.eq_iff_iff, ← (canon_head ha x).2.2.1 hx, ← (canon_head hb x).2.2.1 (by omega), h]
    rw [he, ht]

/-- There is a gap between two ranges. -/
def Apart (a b : Iv) : Prop := a.2 < b.1 ∨ b.2 < a.1

/-- Of any three ranges one is apart from the two others. -/
def Loose (args : List Iv) : Prop := ∀ a b c, [a, b, c].Subperm args →
  (Apart a b ∧ Apart a c) ∨ (Apart b a ∧ Apart b c) ∨ (Apart c a ∧ Apart c b)

theorem Loose.sublist {l l' : List Iv} (h : Loose l) (hs : l'.Subperm l) : Loose l' :=
  fun a b c h3 => h a b c (h3.trans hs)

/-- The merge of sorted ranges of which no three are connected has gaps. -/
theorem walk_canon (l : List Iv) (hs : l.Pairwise (fun a b => a.1 ≤ b.1)) (hn : ∀ d ∈ l, d.1 < d.2) (hl : Loose l) : Canon (walk l) := by
  induction l using walk.induct with
  | case1 => exact ⟨by simp [walk], by simp [walk]⟩
  | case2 a => exact ⟨by simpa [walk] using hn, by simp [walk]⟩
  | case3 a b rest h ih =>
    have ih := ih hs.of_cons.of_cons (fun d hd => hn d (by simp [hd]))
      (hl.sublist (((List.sublist_cons_self b rest).trans (List.sublist_cons_self a _)).subperm))
    simp only [walk, h, if_true]
    have hna := hn a (by simp)
    have hnb := hn b (by simp)
    refine ⟨?_, ?_⟩
    · intro d hd
      rcases List.mem_cons.1 hd with rfl | hd
      · split
        · have := (List.pairwise_cons.1 hs).1 b (by simp)
          simp only; omega
        · exact hna
      · exact ih.1 d hd
    · refine List.pairwise_cons.2 ⟨fun d hd => ?_, ih.2⟩
      obtain ⟨c, hc, hcd⟩ : ∃ c ∈ rest, c.1 = d.1 := by
        have := (walk_lower_sublist rest).subset (List.mem_map_of_mem (f := fun x : Iv => x.1) hd)
        exact List.mem_map.1 this
      have h3 : [a, b, c].Subperm (a :: b :: rest) := by
        apply List.Sublist.subperm
        exact ((List.singleton_sublist.2 hc).cons_cons b).cons_cons a
      have hac := (List.pairwise_cons.1 hs).1 c (by simp [hc])
      have hbc := (List.pairwise_cons.1 hs.of_cons).1 c hc
      have hab := (List.pairwise_cons.1 hs).1 b (by simp)
      have hnc := hn c (by simp [hc])
      have := hl a b c h3
      unfold Apart at this
      split <;> (try simp only) <;> omega
  | case4 a b rest h ih =>
    have ih := ih hs.of_cons (fun d hd => hn d (by simp [hd])) (hl.sublist (List.sublist_cons_self a _).subperm)
    simp only [walk, h, if_false]
    refine ⟨?_, ?_⟩
    · intro d hd
      rcases List.mem_cons.1 hd with rfl | hd
      · exact hn d (by simp)
      · exact ih.1 d hd
    · refine List.pairwise_cons.2 ⟨fun d hd => ?_, ih.2⟩
      obtain ⟨c, hc, hcd⟩ : ∃ c ∈ b :: rest, c.1 = d.1 := by
        have := (walk_lower_sublist (b :: rest)).subset (List.mem_map_of_mem (f := fun x : Iv => x.1) hd)
        exact List.mem_map.1 this
      have hbc : b.1 ≤ c.1 := by
        rcases List.mem_cons.1 hc with rfl | hc
        · exact le_rfl
        · exact (List.pairwise_cons.1 hs.of_cons).1 c hc
      omega

theorem mk_canon (args : List Iv) (h : Loose (args.filter fun d => d.2 > d.1)) : Canon (mk args) := by
  rw [mk_eq]
  apply walk_canon _ (enforceOrder_sorted _)
  · intro d hd
    have := (mem_enforceOrder _ _).1 hd
    simpa using (List.mem_filter.1 this).2
  · exact h.sublist (enforceOrder_perm _).subperm

end Verif.Intervals
