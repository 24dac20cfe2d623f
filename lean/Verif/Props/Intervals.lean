import Verif.Lemmas.Intervals

/-!
Properties C01-C04 (`kerncraft/intervals.py`).

Specification: a range `(lo, hi)` stands for the integers `x` with `lo ≤ x < hi`.
-/

namespace Verif.Intervals

/-- Specification: `x` is covered by one of the given ranges. -/
def Covered (args : List (Int × Int)) (x : Int) : Prop := ∃ d ∈ args, d.1 ≤ x ∧ x < d.2

/-! ## C01 -/

/-- C01: membership in `Intervals(*args)` is membership in the union of the given ranges. -/
theorem C01_contains_iff_covered (args : List (Int × Int)) (x : Int) :
    contains (mk args) x = true ↔ Covered args x :=
  contains_mk args x

example : contains (mk [(5, 9), (0, 3), (2, 6), (4, 1)]) 8 = true :=
  (C01_contains_iff_covered _ _).2 ⟨(5, 9), by simp, by simp⟩

/-- C01: the order of the given ranges is irrelevant. -/
theorem C01_order_irrelevant (args args' : List (Int × Int)) (hp : args.Perm args') (x : Int) :
    contains (mk args) x = contains (mk args') x := by
  rw [Bool.eq_iff_iff, C01_contains_iff_covered, C01_contains_iff_covered]
  unfold Covered
  simp only [hp.mem_iff]

example : contains (mk [(5, 9), (0, 3)]) 7 = contains (mk [(0, 3), (5, 9)]) 7 :=
  C01_order_irrelevant _ _ (List.Perm.swap _ _ _) 7

/-- C01: empty and reversed ranges contribute nothing. -/
theorem C01_empty_ranges_ignored (args : List (Int × Int)) (lo hi : Int) (h : hi ≤ lo) (x : Int) :
    contains (mk ((lo, hi) :: args)) x = contains (mk args) x := by
  rw [Bool.eq_iff_iff, C01_contains_iff_covered, C01_contains_iff_covered]
  unfold Covered
  constructor
  · rintro ⟨d, hd, h1, h2⟩
    rcases List.mem_cons.1 hd with rfl | hd
    · simp only at h1 h2; omega
    · exact ⟨d, hd, h1, h2⟩
  · rintro ⟨d, hd, h1⟩
    exact ⟨d, List.mem_cons_of_mem _ hd, h1⟩

example : contains (mk [(4, 1), (2, 6)]) 3 = contains (mk [(2, 6)]) 3 :=
  C01_empty_ranges_ignored _ 4 1 (by decide) 3

/-! ## C02 -/

/-- C02 full claim: `len` is the number of covered integers. -/
def C02_claim : Prop :=
  ∀ args : List (Int × Int), len (mk args) = Set.ncard {x : Int | Covered args x}

theorem ncard_covered (args : List (Int × Int)) :
    Set.ncard {x : Int | Covered args x} = (cover (mk args)).card := by
  rw [← ncard_eq_card_cover]
  congr 1
  ext x
  exact (C01_contains_iff_covered args x).symm

/-- C02 is false for the code: the second of two swallowed ranges survives and is counted again. -/
theorem C02_negation : ¬ C02_claim := by
  intro h
  have h1 := h [(0, 10), (1, 2), (3, 4)]
  rw [ncard_covered, mk_eq] at h1
  revert h1
  decide

/-- C02 partial (any input): the length is never below the number of covered integers. -/
theorem C02_len_upper_bound_partial (args : List (Int × Int)) :
    (Set.ncard {x : Int | Covered args x} : Int) ≤ len (mk args) := by
  rw [ncard_covered]
  exact card_cover_le _ (mk_nonempty args)

example : (Set.ncard {x : Int | Covered [(0, 10), (1, 2), (3, 4)] x} : Int) ≤
    len (mk [(0, 10), (1, 2), (3, 4)]) := C02_len_upper_bound_partial _

/-- C02 partial: the length is exact when the stored ranges do not overlap. -/
theorem C02_len_exact_of_disjoint_partial (args : List (Int × Int))
    (hd : (mk args).Pairwise (fun a b => a.2 ≤ b.1)) :
    len (mk args) = Set.ncard {x : Int | Covered args x} := by
  rw [ncard_covered]
  exact (card_cover_eq _ (mk_nonempty args) hd).symm

example : (mk [(5, 9), (0, 3), (7, 12)]).Pairwise (fun a b => a.2 ≤ b.1) := by
  rw [mk_eq]; decide

/-- C02 partial: the length is exact for at most two ranges. -/
theorem C02_len_exact_le_two_partial (args : List (Int × Int)) (h2 : args.length ≤ 2) :
    len (mk args) = Set.ncard {x : Int | Covered args x} := by
  apply C02_len_exact_of_disjoint_partial
  rw [mk_eq]
  have hl : (enforceOrder (args.filter (fun d => d.2 > d.1))).length ≤ 2 := by
    rw [(enforceOrder_perm _).length_eq]
    exact le_trans (List.length_filter_le _ _) h2
  generalize enforceOrder (args.filter (fun d => d.2 > d.1)) = l at hl
  match l, hl with
  | [], _ => simp [walk]
  | [a], _ => simp [walk]
  | [a, b], _ =>
    simp only [walk]
    split
    · simp
    · rename_i h; simp; omega
  | a :: b :: c :: l, hl => simp at hl

example : ([(0, 10), (5, 20)] : List (Int × Int)).length ≤ 2 := by decide

/-- C02 partial: the length is exact for ranges that do not meet each other at all. -/
theorem C02_len_exact_separated_partial (args : List (Int × Int))
    (hsep : args.Pairwise (fun a b => a.2 < b.1 ∨ b.2 < a.1)) (hne : ∀ d ∈ args, d.1 < d.2) :
    len (mk args) = Set.ncard {x : Int | Covered args x} := by
  have hfil : args.filter (fun d => d.2 > d.1) = args := by
    rw [List.filter_eq_self]; intro d hd; simpa using hne d hd
  apply C02_len_exact_of_disjoint_partial
  rw [mk_eq, hfil]
  have hsym : Std.Symm (fun a b : Iv => a.2 < b.1 ∨ b.2 < a.1) := ⟨fun a b h => h.symm⟩
  have hsep' : (enforceOrder args).Pairwise (fun a b => a.2 < b.1 ∨ b.2 < a.1) :=
    (enforceOrder_perm args).symm.pairwise hsep (fun h => h.symm)
  have hne' : ∀ d ∈ enforceOrder args, d.1 < d.2 := fun d hd =>
    hne d ((mem_enforceOrder _ _).1 hd)
  have hs := enforceOrder_sorted args
  have key : (enforceOrder args).Pairwise (fun a b => a.2 < b.1) := by
    have := hsep'.and hs
    refine List.Pairwise.imp_of_mem ?_ this
    rintro a b ha hb ⟨h1, h2⟩
    have := hne' a ha; have := hne' b hb
    omega
  generalize enforceOrder args = l at key
  have hw : walk l = l := by
    induction l using walk.induct with
    | case1 => simp [walk]
    | case2 => simp [walk]
    | case3 a b rest h ih =>
      have := (List.pairwise_cons.1 key).1 b (by simp); omega
    | case4 a b rest h ih =>
      simp only [walk, h, if_false]; rw [ih key.of_cons]
  rw [hw]
  exact key.imp (fun h => le_of_lt h)

example : ([(7, 9), (0, 3), (20, 30)] : List (Int × Int)).Pairwise
    (fun a b => a.2 < b.1 ∨ b.2 < a.1) := by decide

/-! ## C03 -/

/-- C03: `a & b` contains exactly the members of `a` and of `b` (on the heap, with the aliasing that
the code has; the operands may even share ranges or be the same object). -/
theorem C03_and_is_union (h : Heap) (a b : List Nat) (x : Int) :
    containsH (andH h a b).1 (andH h a b).2 x = true ↔
      containsH h a x = true ∨ containsH h b x = true :=
  andH_mem h a b x

example : ∃ h : Heap, ∃ a b : List Nat, ∃ x, containsH h a x = false ∧
    containsH (andH h a b).1 (andH h a b).2 x = true :=
  ⟨fun r => if r = 0 then (0, 5) else (3, 9), [0], [1], 7, by decide,
    (C03_and_is_union _ _ _ _).2 (Or.inr (by decide))⟩

/-- C03: the result is sorted by lower bound and has no empty range. -/
theorem C03_result_well_formed (h : Heap) (a b : List Nat) :
    (((andH h a b).2.map (andH h a b).1).Pairwise (fun x y => x.1 ≤ y.1)) ∧
    ∀ d ∈ (andH h a b).2.map (andH h a b).1, d.1 < d.2 := by
  unfold andH
  simp only [enforceNoOverlapH_zero]
  set l := (a ++ b).filter (fun r => (h r).2 > (h r).1) with hl
  constructor
  · rw [List.pairwise_map]
    simp only [walkH_lower]
    exact (enforceOrderH_sorted h l).sublist (walkH_refs _ _)
  · intro d hd
    rw [List.mem_map] at hd
    obtain ⟨r, hr, rfl⟩ := hd
    rw [walkH_lower]
    have h1 := (walkH_refs h _).subset hr
    rw [mem_enforceOrderH, hl, List.mem_filter] at h1
    have h2 : (h r).1 < (h r).2 := by simpa using h1.2
    exact lt_of_lt_of_le h2 (walkH_upper h _ r)

example : ∀ d ∈ (andH (fun r => if r = 0 then (0, 5) else (9, 3)) [0] [1]).2.map
    (andH (fun r => if r = 0 then (0, 5) else (9, 3)) [0] [1]).1, d.1 < d.2 :=
  (C03_result_well_formed _ _ _).2

/-- C03 (pure form): the constructor applied to the concatenated data. -/
theorem C03_and_is_union_pure (a b : List (Int × Int)) (x : Int) :
    contains (mk (a ++ b)) x = (contains a x || contains b x) := by
  rw [Bool.eq_iff_iff, C01_contains_iff_covered, Bool.or_eq_true, contains_iff, contains_iff]
  unfold Covered
  simp only [List.mem_append]
  constructor
  · rintro ⟨d, hd | hd, h⟩
    · exact Or.inl ⟨d, hd, h⟩
    · exact Or.inr ⟨d, hd, h⟩
  · rintro (⟨d, hd, h⟩ | ⟨d, hd, h⟩)
    · exact ⟨d, Or.inl hd, h⟩
    · exact ⟨d, Or.inr hd, h⟩

example : contains (mk ([(0, 5)] ++ [(3, 9)])) 8 = true := by
  rw [C03_and_is_union_pure]; decide

/-! ## C04 -/

/-- C04 full claim: `a & b` does not change the members of `a` or of `b`. -/
def C04_claim : Prop :=
  ∀ (h : Heap) (a b : List Nat) (x : Int),
    containsH (andH h a b).1 a x = containsH h a x ∧ containsH (andH h a b).1 b x = containsH h b x

/-- C04 is false for the code: with `a = Intervals([0,5])` and `b = Intervals([3,9])`, evaluating
`a & b` makes 7 a member of `a`. -/
theorem C04_negation : ¬ C04_claim := by
  intro hc
  have h1 := (hc (fun r => if r = 0 then (0, 5) else (3, 9)) [0] [1] 7).1
  unfold andH at h1
  simp only [enforceNoOverlapH_zero] at h1
  revert h1
  decide

/-- C04 partial: the operands stay unchanged if no range of `a` or `b` reaches into or touches a
longer one that starts later.  (Missing: overlapping operands, for which the claim is false.) -/
theorem C04_operands_unchanged_partial (h : Heap) (a b : List Nat)
    (hno : ∀ p ∈ a ++ b, ∀ q ∈ a ++ b,
      ¬ ((h p).1 ≤ (h q).1 ∧ (h q).1 ≤ (h p).2 ∧ (h p).2 < (h q).2)) :
    (andH h a b).1 = h := by
  unfold andH
  simp only [enforceNoOverlapH_zero]
  apply walkH_heap_eq _ _ (enforceOrderH_sorted h _)
  intro p hp q hq
  rw [mem_enforceOrderH, List.mem_filter] at hp hq
  exact hno p hp.1 q hq.1

example : ∀ p ∈ [0] ++ [1], ∀ q ∈ [0] ++ [1],
    ¬ (((fun r => if r = 0 then (0, 5) else (7, 9)) p : Int × Int).1 ≤
        ((fun r => if r = 0 then (0, 5) else (7, 9)) q : Int × Int).1 ∧
      ((fun r => if r = 0 then (0, 5) else (7, 9)) q : Int × Int).1 ≤
        ((fun r => if r = 0 then (0, 5) else (7, 9)) p : Int × Int).2 ∧
      ((fun r => if r = 0 then (0, 5) else (7, 9)) p : Int × Int).2 <
        ((fun r => if r = 0 then (0, 5) else (7, 9)) q : Int × Int).2) := by decide

/-- C04 partial: members are never lost, over every history of `&` operations. -/
theorem C04_members_never_lost_partial (ops : List (Nat × Nat)) :
    ∀ (h : Heap) (objs : List (List Nat)) (h' : Heap) (objs' : List (List Nat)),
    runAnds h objs ops = some (h', objs') →
    ∀ o ∈ objs, o ∈ objs' ∧ ∀ x, containsH h o x = true → containsH h' o x = true := by
  induction ops with
  | nil =>
    intro h objs h' objs' hr o ho
    simp only [runAnds, Option.some.injEq, Prod.mk.injEq] at hr
    obtain ⟨rfl, rfl⟩ := hr
    exact ⟨ho, fun x hx => hx⟩
  | cons op ops ih =>
    intro h objs h' objs' hr o ho
    simp only [runAnds] at hr
    split at hr
    · rename_i a b _ _
      have := ih _ _ h' objs' hr o (List.mem_append_left _ ho)
      refine ⟨this.1, fun x hx => this.2 x ?_⟩
      rw [containsH_iff] at hx ⊢
      obtain ⟨r, h1, h2, h3⟩ := hx
      refine ⟨r, h1, ?_, ?_⟩
      · unfold andH; simp only [enforceNoOverlapH_zero, walkH_lower]; exact h2
      · unfold andH; simp only [enforceNoOverlapH_zero]
        exact lt_of_lt_of_le h3 (walkH_upper ..)
    · simp at hr

example : ∃ h' objs', runAnds (fun r => if r = 0 then (0, 5) else (3, 9)) [[0], [1]] [(0, 1), (2, 0)]
    = some (h', objs') := ⟨_, _, rfl⟩

end Verif.Intervals
