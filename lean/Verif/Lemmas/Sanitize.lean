import Verif.Model.Sanitize

/-! Lemmas for C165. -/

namespace Verif.Sanitize

theorem digit_iff (c : Char) : digit c = true ↔ '0' ≤ c ∧ c ≤ '9' := by simp [digit]

theorem part_iff (c : Char) : part c = true ↔ IsPart c := by
  simp only [part, digit, IsPart, IsStart, Bool.or_eq_true, Bool.and_eq_true, decide_eq_true_eq, beq_iff_eq]
  constructor
  · rintro (((h | h) | h) | h)
    · exact Or.inr h
    · exact Or.inl (Or.inl h)
    · exact Or.inl (Or.inr (Or.inl h))
    · exact Or.inl (Or.inr (Or.inr h))
  · rintro ((h | h | h) | h)
    · exact Or.inl (Or.inl (Or.inr h))
    · exact Or.inl (Or.inr h)
    · exact Or.inr h
    · exact Or.inl (Or.inl (Or.inl h))

theorem start_not_digit (c : Char) (h : IsStart c) : digit c = false := by
  rw [Bool.eq_false_iff]
  intro hd
  rw [digit_iff] at hd
  simp only [IsStart, Char.le_def, UInt32.le_iff_toNat_le] at *
  rcases h with h | h | h
  · have : ('a' : Char).val.toNat = 97 := rfl
    have : ('9' : Char).val.toNat = 57 := rfl
    omega
  · have : ('A' : Char).val.toNat = 65 := rfl
    have : ('9' : Char).val.toNat = 57 := rfl
    omega
  · subst h
    revert hd
    decide

theorem isStart_iff (c : Char) : IsStart c ↔ matches? true c = false := by
  simp only [matches?, Bool.true_and, Bool.or_eq_false_iff, Bool.not_eq_false', part_iff]
  constructor
  · intro h
    exact ⟨start_not_digit c h, Or.inl h⟩
  · rintro ⟨h1, h2 | h2⟩
    · exact h2
    · rw [← digit_iff] at h2
      rw [h2] at h1
      simp at h1

theorem isPart_iff (c : Char) : IsPart c ↔ matches? false c = false := by
  simp [matches?, part_iff]

theorem underscore : IsStart '_' := Or.inr (Or.inr rfl)

theorem subn_length : ∀ (s : List Char) (b : Bool), (subn b s).length = s.length := by
  intro s
  induction s with
  | nil => intro b; rfl
  | cons c cs ih => intro b; simp [subn, ih]

theorem subn_part : ∀ (s : List Char), ∀ x ∈ subn false s, IsPart x := by
  intro s
  induction s with
  | nil => intro x hx; simp [subn] at hx
  | cons c cs ih =>
    intro x hx
    simp only [subn, List.mem_cons] at hx
    rcases hx with h | h
    · subst h
      split
      · exact Or.inl underscore
      · rename_i hm
        exact (isPart_iff c).mpr (by simpa using hm)
    · exact ih x h

theorem subn_id : ∀ (s : List Char), (∀ x ∈ s, IsPart x) → subn false s = s := by
  intro s
  induction s with
  | nil => intro _; rfl
  | cons c cs ih =>
    intro h
    have hc := (isPart_iff c).mp (h c (by simp))
    simp [subn, hc, ih (fun x hx => h x (by simp [hx]))]

theorem subn_getElem : ∀ (s : List Char) (i : Nat) (c : Char), s[i]? = some c →
    (subn false s)[i]? = some (if matches? false c then '_' else c) := by
  intro s
  induction s with
  | nil => intro i c h; simp at h
  | cons a s ih =>
    intro i c h
    cases i with
    | zero => simp at h; subst h; simp [subn]
    | succ i => simp at h; simp [subn, ih i c h]

end Verif.Sanitize
