import Verif.Model.Text
import Mathlib.Data.Nat.Digits.Lemmas
import Mathlib.Algebra.Order.Ring.Int

/-!
Lemmas about text primitives.
-/

namespace Verif.Text

theorem splitNl_ne_nil (s : List Char) : splitNl s ≠ [] := by
  cases s with
  | nil => simp [splitNl]
  | cons c cs =>
    unfold splitNl
    split
    · simp
    · split <;> simp

theorem splitNl_line (l : List Char) (h : '\n' ∉ l) : splitNl l = [l] := by
  induction l with
  | nil => rfl
  | cons c l ih =>
    have hc : c ≠ '\n' := fun e => h (by simp [e])
    have hl : '\n' ∉ l := fun e => h (by simp [e])
    simp [splitNl, hc, ih hl]

theorem splitNl_append (a b : List Char) : splitNl (a ++ '\n' :: b) = splitNl a ++ splitNl b := by
  induction a with
  | nil => simp [splitNl]
  | cons c a ih =>
    simp only [List.cons_append, splitNl, ih]
    split
    · simp
    · cases h : splitNl a with
      | nil => exact absurd h (splitNl_ne_nil a)
      | cons l ls => simp

theorem wordsAux_word (cur w rest : List Char) (hw : ∀ c ∈ w, isSpace c = false) :
    wordsAux cur (w ++ rest) = wordsAux (cur ++ w) rest := by
  induction w generalizing cur with
  | nil => simp
  | cons c w ih =>
    have hc := hw c (by simp)
    simp only [List.cons_append, wordsAux, hc]
    rw [if_neg (by simp), ih _ (fun c h => hw c (by simp [h]))]
    simp

theorem words_cons (w rest : List Char) (hne : w ≠ []) (hw : ∀ c ∈ w, isSpace c = false) :
    words (w ++ ' ' :: rest) = w :: words rest := by
  unfold words
  rw [wordsAux_word _ _ _ hw]
  have : isSpace ' ' = true := by decide
  simp [wordsAux, this, hne]

theorem words_single (w : List Char) (hne : w ≠ []) (hw : ∀ c ∈ w, isSpace c = false) : words w = [w] := by
  have := wordsAux_word [] w [] hw
  simp only [List.append_nil, List.nil_append] at this
  unfold words
  rw [this]
  simp [wordsAux, hne]

theorem digitChar_toNat (d : Nat) (h : d < 10) : (digitChar d).toNat = 48 + d := by
  have : d = 0 ∨ d = 1 ∨ d = 2 ∨ d = 3 ∨ d = 4 ∨ d = 5 ∨ d = 6 ∨ d = 7 ∨ d = 8 ∨ d = 9 := by omega
  rcases this with rfl | rfl | rfl | rfl | rfl | rfl | rfl | rfl | rfl | rfl <;> rfl

theorem digitChar_isDigit (d : Nat) (h : d < 10) : isDigit (digitChar d) = true := by
  simp only [isDigit, digitChar_toNat d h, Bool.and_eq_true, decide_eq_true_eq]
  omega

theorem parseDigits_map (ds : List Nat) (acc : Nat) (b : Bool) (h : ∀ d ∈ ds, d < 10) (hne : ds ≠ [] ∨ b = true) :
    parseDigits acc b (ds.map digitChar) = some (ds.foldl (fun a d => 10 * a + d) acc) := by
  induction ds generalizing acc b with
  | nil => rcases hne with h | h <;> simp_all [parseDigits]
  | cons d ds ih =>
    have hd := h d (by simp)
    simp only [List.map_cons, parseDigits, digitChar_isDigit d hd, if_true, digitChar_toNat d hd, List.foldl_cons]
    rw [ih _ _ (fun d' h' => h d' (by simp [h'])) (Or.inr rfl)]
    simp

theorem foldl_reverse_digits (l : List Nat) :
    l.reverse.foldl (fun a d => 10 * a + d) 0 = Nat.ofDigits 10 l := by
  induction l with
  | nil => rfl
  | cons d l ih =>
    rw [List.reverse_cons, List.foldl_append, ih]
    simp [Nat.ofDigits_cons]
    omega

theorem parseDigits_showNat (n : Nat) : parseDigits 0 false (showNat n) = some n := by
  unfold showNat
  split
  · subst_vars; decide
  · rename_i h
    rw [parseDigits_map]
    · rw [foldl_reverse_digits, Nat.ofDigits_digits]
    · intro d hd
      exact Nat.digits_lt_base (by norm_num) (List.mem_reverse.mp hd)
    · left
      simpa [Nat.digits_ne_nil_iff_ne_zero] using h

theorem showNat_digits (n : Nat) : ∀ c ∈ showNat n, isDigit c = true := by
  unfold showNat
  split
  · intro c hc
    simp only [List.mem_singleton] at hc
    subst hc; decide
  · intro c hc
    obtain ⟨d, hd, rfl⟩ := List.mem_map.mp hc
    exact digitChar_isDigit d (Nat.digits_lt_base (by norm_num) (List.mem_reverse.mp hd))

theorem showNat_ne_nil (n : Nat) : showNat n ≠ [] := by
  unfold showNat
  split
  · simp
  · rename_i h
    simpa [Nat.digits_ne_nil_iff_ne_zero] using h

theorem parseInt_showInt (z : Int) : parseInt (showInt z) = some z := by
  unfold showInt
  split
  · rename_i h
    simp only [parseInt, parseDigits_showNat, Option.map_some, Option.some.injEq]
    omega
  · rename_i h
    have hd := showNat_digits z.natAbs
    have hp := parseDigits_showNat z.natAbs
    revert hd hp
    generalize showNat z.natAbs = s
    intro hd hp
    unfold parseInt
    split
    · have := hd '-' (by simp)
      exact absurd this (by decide)
    · have := hd '+' (by simp)
      exact absurd this (by decide)
    · simp only [hp, Option.map_some, Option.some.injEq]
      omega

theorem isDigit_not_space (c : Char) (h : isDigit c = true) : isSpace c = false := by
  simp only [isDigit, Bool.and_eq_true, decide_eq_true_eq] at h
  unfold isSpace
  simp only [Bool.or_eq_false_iff, decide_eq_false_iff_not]
  refine ⟨⟨⟨⟨⟨⟨⟨⟨⟨?_, ?_⟩, ?_⟩, ?_⟩, ?_⟩, ?_⟩, ?_⟩, ?_⟩, ?_⟩, ?_⟩ <;>
    (rintro rfl; revert h; decide)

theorem showInt_not_space (z : Int) : ∀ c ∈ showInt z, isSpace c = false := by
  unfold showInt
  intro c hc
  split at hc
  · rcases List.mem_cons.mp hc with rfl | hc
    · decide
    · exact isDigit_not_space c (showNat_digits _ c hc)
  · exact isDigit_not_space c (showNat_digits _ c hc)

theorem showInt_ne_nil (z : Int) : showInt z ≠ [] := by
  unfold showInt
  split
  · simp
  · exact showNat_ne_nil _

theorem splitNl_no_newline (s : List Char) : ∀ l ∈ splitNl s, '\n' ∉ l := by
  induction s with
  | nil => simp [splitNl]
  | cons c s ih =>
    unfold splitNl
    split
    · intro l hl
      rcases List.mem_cons.mp hl with rfl | hl
      · simp
      · exact ih l hl
    · rename_i hc
      cases h : splitNl s with
      | nil => exact absurd h (splitNl_ne_nil s)
      | cons a as =>
        rw [h] at ih
        intro l hl
        simp only at hl
        rcases List.mem_cons.mp hl with rfl | hl
        · have := ih a (by simp)
          simp only [List.mem_cons, not_or]
          exact ⟨fun e => hc e.symm, this⟩
        · exact ih l (by simp [hl])

theorem splitNl_joinNl (ls : List (List Char)) (hne : ls ≠ []) (h : ∀ l ∈ ls, '\n' ∉ l) : splitNl (joinNl ls) = ls := by
  induction ls with
  | nil => exact absurd rfl hne
  | cons l ls ih =>
    cases ls with
    | nil => exact splitNl_line l (h l (by simp))
    | cons l' ls =>
      simp only [joinNl]
      rw [splitNl_append, splitNl_line l (h l (by simp)), ih (by simp) (fun x hx => h x (by simp [hx]))]
      rfl

theorem joinNl_splitNl (s : List Char) : joinNl (splitNl s) = s := by
  induction s with
  | nil => rfl
  | cons c s ih =>
    cases hs : splitNl s with
    | nil => exact absurd hs (splitNl_ne_nil s)
    | cons a as =>
      rw [hs] at ih
      unfold splitNl
      rw [hs]
      by_cases hc : c = '\n'
      · simp [hc, joinNl, ih]
      · rw [if_neg hc]
        cases as with
        | nil => simp_all [joinNl]
        | cons b bs => simp only [joinNl] at ih ⊢; simp [← ih]

theorem splitNl_length (s : List Char) : (splitNl s).length = s.count '\n' + 1 := by
  induction s with
  | nil => rfl
  | cons c s ih =>
    unfold splitNl
    cases hs : splitNl s with
    | nil => exact absurd hs (splitNl_ne_nil s)
    | cons a as =>
      rw [hs] at ih
      by_cases hc : c = '\n'
      · simp_all
      · simp [hc] at ih ⊢
        exact ih

/-- Deleting characters other than newlines deletes characters of each line. -/
theorem lines_sublist (a b : List Char) (h : a.Sublist b) (hc : a.count '\n' = b.count '\n') :
    List.Forall₂ List.Sublist (splitNl a) (splitNl b) := by
  induction h with
  | slnil => exact List.Forall₂.cons (List.Sublist.refl _) List.Forall₂.nil
  | @cons a b c hs ih =>
    have hle := hs.count_le '\n'
    have hcn : c ≠ '\n' := by
      rintro rfl
      rw [List.count_cons_self] at hc
      omega
    have hc' : a.count '\n' = b.count '\n' := by
      rwa [List.count_cons_of_ne hcn] at hc
    have ih := ih hc'
    have hsplit : splitNl (c :: b) = match splitNl b with | l :: ls => (c :: l) :: ls | [] => [[c]] := by
      conv_lhs => unfold splitNl
      rw [if_neg hcn]
      cases splitNl b <;> rfl
    rw [hsplit]
    cases hb : splitNl b with
    | nil => exact absurd hb (splitNl_ne_nil b)
    | cons l ls =>
      cases ha : splitNl a with
      | nil => exact absurd ha (splitNl_ne_nil a)
      | cons k ks =>
        rw [hb, ha] at ih
        cases ih with
        | cons h1 h2 => exact List.Forall₂.cons (h1.cons c) h2
  | @cons_cons a b c hs ih =>
    have hc' : a.count '\n' = b.count '\n' := by
      simpa [List.count_cons] using hc
    have ih := ih hc'
    unfold splitNl
    split
    · exact List.Forall₂.cons (List.Sublist.refl _) ih
    · cases hb : splitNl b with
      | nil => exact absurd hb (splitNl_ne_nil b)
      | cons l ls =>
        cases ha : splitNl a with
        | nil => exact absurd ha (splitNl_ne_nil a)
        | cons k ks =>
          rw [hb, ha] at ih
          cases ih with
          | cons h1 h2 => exact List.Forall₂.cons (h1.cons_cons c) h2

end Verif.Text
