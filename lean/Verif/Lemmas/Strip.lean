import Verif.Spec.Comments
import Verif.Lemmas.Clean

/-!
Equations of the specification of comment stripping.
-/

namespace Verif.Spec

theorem strip_line (r : List Char) : stripC .code ('/' :: '/' :: r) = stripC .line r ∧
    endMode .code ('/' :: '/' :: r) = endMode .line r := by
  constructor
  · rw [stripC]
  · rw [endMode]

theorem strip_open (r : List Char) : stripC .code ('/' :: '*' :: r) = stripC .block r ∧
    endMode .code ('/' :: '*' :: r) = endMode .block r := by
  constructor
  · rw [stripC]
  · rw [endMode]

theorem strip_keep (c : Char) (r : List Char) (h1 : c = '/' → r.head? ≠ some '/') (h2 : c = '/' → r.head? ≠ some '*') :
    stripC .code (c :: r) = c :: stripC .code r ∧ endMode .code (c :: r) = endMode .code r := by
  constructor
  · rw [stripC]
    · rintro r' rfl rfl
      exact h1 rfl rfl
    · rintro r' rfl rfl
      exact h2 rfl rfl
  · rw [endMode]
    · rintro r' rfl rfl
      exact h1 rfl rfl
    · rintro r' rfl rfl
      exact h2 rfl rfl

theorem strip_close (r : List Char) : stripC .block ('*' :: '/' :: r) = stripC .code r ∧
    endMode .block ('*' :: '/' :: r) = endMode .code r := by
  constructor
  · rw [stripC]
  · rw [endMode]

theorem strip_block (c : Char) (r : List Char) (h : c = '*' → r.head? ≠ some '/') :
    stripC .block (c :: r) = List.replicate ([c].count '\n') '\n' ++ stripC .block r ∧
    endMode .block (c :: r) = endMode .block r := by
  by_cases hc : c = '\n'
  · subst hc
    constructor
    · rw [stripC]; rfl
    · rw [endMode]
  · constructor
    · rw [stripC]
      · simp [hc]
      · rintro r' rfl rfl
        exact h rfl rfl
      · rintro rfl
        exact hc rfl
    · rw [endMode]
      · rintro r' rfl rfl
        exact h rfl rfl
      · rintro rfl
        exact hc rfl

theorem strip_line_end (m v : List Char) (hm : '\n' ∉ m) :
    stripC .line (m ++ '\n' :: v) = '\n' :: stripC .code v ∧ endMode .line (m ++ '\n' :: v) = endMode .code v := by
  induction m with
  | nil =>
    constructor
    · simp only [List.nil_append]; rw [stripC]
    · simp only [List.nil_append]; rw [endMode]
  | cons c m ih =>
    have hc : c ≠ '\n' := fun e => hm (by simp [e])
    have ih := ih fun e => hm (by simp [e])
    constructor
    · simp only [List.cons_append]
      rw [stripC]
      · exact ih.1
      · rintro rfl; exact hc rfl
    · simp only [List.cons_append]
      rw [endMode]
      · exact ih.2
      · rintro rfl; exact hc rfl

end Verif.Spec
