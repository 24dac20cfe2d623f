import Verif.Lemmas.Sanitize

/-!
C165: sanitized names of symbols.
-/

namespace Verif.Sanitize

/-- The claim of C165: whatever the text, the result is a name. -/
def C165Claim : Prop := ∀ s, IsName (sanitize s)

/-- C165: the result is a name exactly if the text is not empty. -/
theorem C165_name_iff (s : List Char) : IsName (sanitize s) ↔ s ≠ [] := by
  cases s with
  | nil =>
    constructor
    · rintro ⟨c, cs, h, -⟩
      simp [sanitize, subn] at h
    · intro h; exact absurd rfl h
  | cons c cs =>
    simp only [ne_eq, reduceCtorEq, not_false_eq_true, iff_true]
    refine ⟨_, _, rfl, ?_, subn_part cs⟩
    split
    · exact underscore
    · rename_i hm
      exact (isStart_iff c).mpr (by simpa using hm)

/-- C165, partial: texts that are not empty become names. Missing: the empty text (`C165_negation`). -/
theorem C165_name_partial (s : List Char) (h : s ≠ []) : IsName (sanitize s) := (C165_name_iff s).mpr h

/-- C165: exactly names stay as they are, apart from the empty text. -/
theorem C165_unchanged_iff (s : List Char) : sanitize s = s ↔ IsName s ∨ s = [] := by
  constructor
  · intro h
    by_cases hs : s = []
    · exact Or.inr hs
    · left
      have := C165_name_partial s hs
      rwa [h] at this
  · rintro (⟨c, cs, rfl, hc, hcs⟩ | rfl)
    · have := (isStart_iff c).mp hc
      simp [sanitize, subn, this, subn_id cs hcs]
    · rfl

/-- C165: sanitizing twice changes nothing more. -/
theorem C165_idempotent (s : List Char) : sanitize (sanitize s) = sanitize s := by
  rw [C165_unchanged_iff]
  by_cases hs : s = []
  · subst hs; exact Or.inr rfl
  · exact Or.inl (C165_name_partial s hs)

/-- C165: every character that may stand where it is stays there, every other one becomes an underscore, and none is added or removed. -/
theorem C165_characters (s : List Char) : (sanitize s).length = s.length ∧ ∀ (i : Nat) (c : Char), s[i]? = some c →
    ((if i = 0 then IsStart c else IsPart c) → (sanitize s)[i]? = some c) ∧
      (¬ (if i = 0 then IsStart c else IsPart c) → (sanitize s)[i]? = some '_') := by
  refine ⟨subn_length s true, ?_⟩
  intro i c h
  cases s with
  | nil => simp at h
  | cons a s =>
    cases i with
    | zero =>
      simp at h
      subst h
      simp only [if_true, isStart_iff, sanitize, subn]
      constructor <;> intro hm <;> simp_all
    | succ i =>
      simp at h
      have hg := subn_getElem s i c h
      simp only [Nat.add_eq_zero_iff, Nat.one_ne_zero, and_false, if_false, isPart_iff, sanitize, subn, List.getElem?_cons_succ, hg]
      constructor <;> intro hm <;> simp_all

/-- The claim is violated by the code: the empty text stays empty. -/
theorem C165_negation : ¬ C165Claim := by
  intro hc
  exact absurd rfl ((C165_name_iff []).mp (hc []))

example : sanitize ['1', 's', 't', ' ', 'L', '2', '-', 'b', 'w'] = ['_', 's', 't', '_', 'L', '2', '_', 'b', 'w'] := by decide
example : sanitize ['a', '_', '1'] = ['a', '_', '1'] := by decide
example : sanitize ['a', ' ', 'b'] = sanitize ['a', '-', 'b'] := by decide

end Verif.Sanitize
