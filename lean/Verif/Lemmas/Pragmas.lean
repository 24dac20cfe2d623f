import Verif.Model.Pragmas
import Mathlib.Data.List.Infix
import Mathlib.Data.List.TakeWhile

/-!
Lemmas on texts of pragmas.
-/

namespace Verif.Pragmas

theorem inText_iff (p s : List Char) : inText p s = true ↔ p <:+: s := by
  induction s with
  | nil => simp [inText]
  | cons c cs ih => rw [inText, Bool.or_eq_true, ih, List.infix_cons_iff, List.isPrefixOf_iff_prefix]

theorem remove_none (p s : List Char) (h : ¬ p <:+: s) : remove p 0 s = s := by
  induction s with
  | nil => rfl
  | cons c cs ih =>
    rw [remove, if_neg]
    · rw [ih fun hc => h (hc.trans (List.suffix_cons c cs).isInfix)]
    · rw [List.isPrefixOf_iff_prefix]
      exact fun hp => h hp.isInfix

theorem remove_parallel (c : List Char) : remove " parallel".toList 0 ("omp parallel for".toList ++ c) = "omp for".toList ++ remove " parallel".toList 0 c := rfl

theorem remove_for (c : List Char) : remove " parallel".toList 0 ("omp for".toList ++ c) = "omp for".toList ++ remove " parallel".toList 0 c := rfl

theorem without_skip (a b : List Char) : withoutOmp a.length (a ++ b) = withoutOmp 0 b := by
  induction a with
  | nil => rfl
  | cons x a ih => exact ih

theorem without_other (l t : List Char) (h : ¬ "#pragma omp".toList <:+: l) : withoutOmp 0 (l ++ '\n' :: t) = l ++ '\n' :: withoutOmp 0 t := by
  induction l with
  | nil => rfl
  | cons c l ih =>
    rw [List.cons_append, withoutOmp, if_neg, ih fun hc => h (hc.trans (List.suffix_cons c l).isInfix), List.cons_append]
    rintro ⟨hp, -⟩
    rw [List.isPrefixOf_iff_prefix, ← List.cons_append] at hp
    rcases Nat.lt_or_ge (c :: l).length "#pragma omp".toList.length with hl | hl
    · obtain ⟨k, hk⟩ := List.prefix_of_prefix_length_le (List.prefix_append (c :: l) ('\n' :: t)) hp hl.le
      rw [← hk, List.prefix_append_right_inj] at hp
      cases k with
      | nil => rw [List.append_nil] at hk; rw [hk] at hl; exact absurd hl (lt_irrefl _)
      | cons x k =>
        obtain rfl := (List.cons_prefix_cons.1 hp).1
        have : '\n' ∈ "#pragma omp".toList := by rw [← hk]; simp
        exact absurd this (by decide)
    · exact h (List.prefix_of_prefix_length_le hp (List.prefix_append (c :: l) ('\n' :: t)) hl).isInfix

theorem without_directive (r t : List Char) (hr : '\n' ∉ r) : withoutOmp 0 ("#pragma omp".toList ++ r ++ '\n' :: t) = withoutOmp 0 t := by
  have h1 : "#pragma omp".toList ++ r ++ '\n' :: t = '#' :: ("pragma omp".toList ++ r ++ '\n' :: t) := rfl
  rw [h1, withoutOmp, if_pos]
  · have h2 : ("pragma omp".toList ++ r ++ '\n' :: t).takeWhile (· ≠ '\n') = "pragma omp".toList ++ r := by
      rw [List.takeWhile_append_of_pos]
      · simp
      · intro c hc
        rcases List.mem_append.1 hc with hc | hc
        · have : ∀ c ∈ "pragma omp".toList, decide (c ≠ '\n') = true := by decide
          exact this c hc
        · simp only [decide_eq_true_eq]
          rintro rfl
          exact hr hc
    rw [h2]
    have h3 := without_skip ("pragma omp".toList ++ r ++ ['\n']) t
    simpa using h3
  · refine ⟨?_, by simp⟩
    rw [List.isPrefixOf_iff_prefix]
    exact ⟨r ++ '\n' :: t, rfl⟩

theorem without_indent (i t : List Char) (h : ∀ c ∈ i, c = ' ') : withoutOmp 0 (i ++ t) = i ++ withoutOmp 0 t := by
  induction i with
  | nil => rfl
  | cons c i ih =>
    obtain rfl := h c (by simp)
    rw [List.cons_append, withoutOmp, if_neg, ih fun c hc => h c (by simp [hc]), List.cons_append]
    rintro ⟨hp, -⟩
    rw [List.isPrefixOf_iff_prefix] at hp
    obtain ⟨k, hk⟩ := hp
    have : "#pragma omp".toList = '#' :: "pragma omp".toList := rfl
    rw [this, List.cons_append, List.cons.injEq] at hk
    exact absurd hk.1 (by decide)

end Verif.Pragmas
