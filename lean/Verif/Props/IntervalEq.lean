import Verif.Lemmas.IntervalEq
import Verif.Props.Intervals
import Mathlib.Data.List.Sublists
import Mathlib.Tactic.Tauto

/-!
C120: equality of intervals. C02: the length of intervals of which no three are connected.
-/

namespace Verif.Intervals

/-- C120: equal intervals have the same members. -/
theorem C120_sound (args args' : List (Int × Int)) (h : eq (mk args) (mk args') = true) (x : Int) : Covered args x ↔ Covered args' x := by
  rw [← C01_contains_iff_covered, ← C01_contains_iff_covered, of_decide_eq_true h]

example : eq (mk [(0, 2), (2, 5)]) (mk [(0, 5), (3, 4)]) = true := by
  unfold eq; rw [mk_eq, mk_eq]; decide

/-- C120, partial: intervals of which no three are connected are equal if and only if they have the same members. Missing: three connected ranges
(`C120_negation`). -/
theorem C120_iff_partial (args args' : List (Int × Int)) (h : Loose (args.filter fun d => d.2 > d.1))
    (h' : Loose (args'.filter fun d => d.2 > d.1)) :
    eq (mk args) (mk args') = true ↔ ∀ x, Covered args x ↔ Covered args' x := by
  refine ⟨fun he x => C120_sound args args' he x, fun hx => decide_eq_true ?_⟩
  refine canon_unique _ _ (mk_canon args h) (mk_canon args' h') fun x => ?_
  rw [Bool.eq_iff_iff, C01_contains_iff_covered, C01_contains_iff_covered]
  exact hx x

/-- Two ranges are never three connected ones. -/
theorem loose_two (args : List (Int × Int)) (h : args.length ≤ 2) : Loose args := by
  intro a b c h3
  have := h3.length_le
  simp at this
  omega

/-- Neither are ranges with gaps between them. -/
theorem loose_apart (args : List (Int × Int)) (h : args.Pairwise Apart) : Loose args := by
  intro a b c h3
  obtain ⟨l, hp, hs⟩ := h3
  have hl := hp.pairwise (h.sublist hs) (fun {x y} hxy => Or.symm hxy)
  simp only [List.pairwise_cons, List.mem_cons, List.not_mem_nil, or_false, forall_eq_or_imp, forall_eq] at hl
  exact Or.inl hl.1

example : Loose ([(7, 9), (0, 3), (20, 30), (40, 41)] : List (Int × Int)) := loose_apart _ (by unfold Apart; decide)

example : Loose (([(0, 5), (3, 9), (4, 2)] : List (Int × Int)).filter fun d => d.2 > d.1) := loose_two _ (by decide)

/-- C120 does not hold: these have the members 0, 1, 2 and 3, but are not equal. -/
theorem C120_negation : ∃ args args' : List (Int × Int), (∀ x, Covered args x ↔ Covered args' x) ∧ eq (mk args) (mk args') = false := by
  refine ⟨[(0, 2), (1, 3), (2, 4)], [(0, 4)], fun x => ?_, ?_⟩
  · simp [Covered]; omega
  · unfold eq; rw [mk_eq, mk_eq]; decide

/-- C02, partial: the length is exact if no three ranges are connected. Missing: three connected ranges (`C02_negation`). -/
theorem C02_len_exact_loose_partial (args : List (Int × Int)) (h : Loose (args.filter fun d => d.2 > d.1)) :
    len (mk args) = Set.ncard {x : Int | Covered args x} :=
  C02_len_exact_of_disjoint_partial args ((mk_canon args h).2.imp fun h => le_of_lt h)

theorem perm_pair {x y b c : Int × Int} (h : [x, y].Perm [b, c]) : (b = x ∧ c = y) ∨ (b = y ∧ c = x) := by
  have hb : b ∈ [x, y] := h.mem_iff.2 (by simp)
  rcases List.mem_cons.1 hb with rfl | hb
  · have := (List.perm_cons b).1 h
    simp only [List.perm_singleton, List.cons.injEq, and_true] at this
    exact Or.inl ⟨rfl, this.symm⟩
  · have hb : b = y := by simpa using hb
    subst hb
    have := (List.perm_cons b).1 ((List.Perm.swap x b []).trans h)
    simp only [List.perm_singleton, List.cons.injEq, and_true] at this
    exact Or.inr ⟨rfl, this.symm⟩

/-- It is enough to look at three ranges in their order. -/
theorem loose_of_sublists (args : List (Int × Int)) (h : ∀ a b c, [a, b, c].Sublist args →
    (Apart a b ∧ Apart a c) ∨ (Apart b a ∧ Apart b c) ∨ (Apart c a ∧ Apart c b)) : Loose args := by
  intro a b c h3
  obtain ⟨l, hp, hs⟩ := h3
  obtain ⟨x, y, z, rfl⟩ := List.length_eq_three.1 hp.length_eq
  have h := h x y z hs
  have ha : a ∈ [x, y, z] := hp.mem_iff.2 (by simp)
  simp only [List.mem_cons, List.not_mem_nil, or_false] at ha
  rcases ha with rfl | rfl | rfl
  · rcases perm_pair ((List.perm_cons a).1 hp) with ⟨rfl, rfl⟩ | ⟨rfl, rfl⟩ <;> tauto
  · rcases perm_pair ((List.perm_cons a).1 ((List.Perm.swap x a [z]).trans hp)) with ⟨rfl, rfl⟩ | ⟨rfl, rfl⟩ <;> tauto
  · have hq : [a, x, y].Perm [x, y, a] := (List.perm_append_comm (l₁ := [a]) (l₂ := [x, y]))
    rcases perm_pair ((List.perm_cons a).1 (hq.trans hp)) with ⟨rfl, rfl⟩ | ⟨rfl, rfl⟩ <;> tauto

/-- Two pairs of connected ranges. -/
example : Loose ([(0, 5), (3, 9), (20, 25), (22, 30)] : List (Int × Int)) := by
  apply loose_of_sublists
  intro a b c h
  have hm : [a, b, c] ∈ List.sublistsLen 3 ([(0, 5), (3, 9), (20, 25), (22, 30)] : List (Int × Int)) :=
    List.mem_sublistsLen.2 ⟨h, rfl⟩
  simp [List.sublistsLen, List.sublistsLenAux] at hm
  unfold Apart
  rcases hm with ⟨rfl, rfl, rfl⟩ | ⟨rfl, rfl, rfl⟩ | ⟨rfl, rfl, rfl⟩ | ⟨rfl, rfl, rfl⟩ <;> decide

end Verif.Intervals
