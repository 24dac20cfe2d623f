import Mathlib.Tactic.Ring
import Mathlib.Tactic.IntervalCases
import Mathlib.Tactic.FinCases
import Mathlib.Tactic.ByContra
import Verif.Model.Options
import Verif.Spec.IntText

/-! Lemmas on `int`. -/

namespace Verif.Options

open Verif.IntText
open Verif.Numerals (value)

theorem isDigit_iff (c : Char) : c.isDigit = true ↔ c ∈ Numerals.digits := by
  constructor
  · intro h
    simp only [Char.isDigit, Bool.and_eq_true, decide_eq_true_eq, ge_iff_le] at h
    obtain ⟨h1, h2⟩ := h
    have h1' : 48 ≤ c.toNat := h1
    have h2' : c.toNat ≤ 57 := h2
    have hc : c = Char.ofNat c.toNat := by simp
    rw [hc]
    generalize c.toNat = m at *
    interval_cases m <;> decide
  · intro h
    fin_cases h <;> decide

theorem digit_value (c : Char) (h : c ∈ Numerals.digits) : c.toNat - '0'.toNat = Numerals.digits.idxOf c := by
  fin_cases h <;> decide

theorem digit_ne (c : Char) (h : c ∈ Numerals.digits) : c ≠ '_' ∧ c ≠ '-' ∧ c ≠ '+' ∧ isSpace c = false := by
  fin_cases h <;> decide

theorem isSpace_iff (c : Char) : isSpace c = true ↔ c ∈ blanks := by
  simp [isSpace, blanks, or_assoc]

/-- `digits` after a digit: nothing, or digits, or an underscore and digits. -/
theorem digits_iff (n : Nat) (cs : List Char) (m : Nat) :
    digits n cs = some m ↔ (cs = [] ∧ m = n) ∨ ∃ t d, (cs = t ∨ cs = '_' :: t) ∧ Digits t d ∧ m = n * 10 ^ d.length + value d := by
  induction hl : cs.length using Nat.strong_induction_on generalizing n cs with
  | _ l ih =>
  -- one digit and the rest
  have step : ∀ (c : Char) (rest : List Char), rest.length < l →
      ((if c.isDigit then digits (10 * n + (c.toNat - '0'.toNat)) rest else none) = some m ↔
        ∃ d, Digits (c :: rest) d ∧ m = n * 10 ^ d.length + value d) := by
    intro c rest hr
    by_cases hc : c.isDigit
    · have hd := (isDigit_iff c).1 hc
      rw [if_pos hc, ih _ hr _ rest rfl, digit_value c hd]
      constructor
      · rintro (⟨rfl, rfl⟩ | ⟨t, d, ht, hD, rfl⟩)
        · exact ⟨[c], .last hd, by simp [value]; ring⟩
        · refine ⟨c :: d, ?_, by simp [value, pow_succ]; ring⟩
          rcases ht with rfl | rfl
          · exact .digit hd hD
          · exact .underscore hd hD
      · rintro ⟨d, hD, rfl⟩
        cases hD with
        | last _ => exact Or.inl ⟨rfl, by simp [value]; ring⟩
        | digit _ h => exact Or.inr ⟨_, _, Or.inl rfl, h, by simp [value, pow_succ]; ring⟩
        | underscore _ h => exact Or.inr ⟨_, _, Or.inr rfl, h, by simp [value, pow_succ]; ring⟩
    · rw [if_neg hc]
      refine ⟨fun h => (by simp at h), ?_⟩
      rintro ⟨d, hD, -⟩
      exfalso
      apply hc
      rw [isDigit_iff]
      cases hD <;> assumption
  match cs, hl with
  | [], _ =>
    constructor
    · intro h
      simp only [digits, Option.some.injEq] at h
      exact Or.inl ⟨rfl, h.symm⟩
    · rintro (⟨-, rfl⟩ | ⟨t, d, ht, hD, -⟩)
      · rfl
      · rcases ht with rfl | ht
        · cases hD
        · simp at ht
  | c :: rest, hl =>
    by_cases hu : c = '_'
    · subst hu
      match rest, hl with
      | [], hl =>
        constructor
        · intro h
          simp [digits] at h
        · rintro (⟨h, -⟩ | ⟨t, d, ht, hD, -⟩)
          · simp at h
          · exfalso
            rcases ht with rfl | ht
            · cases hD with
              | last h => exact (digit_ne _ h).1 rfl
              | digit h _ => exact (digit_ne _ h).1 rfl
            · simp only [List.cons.injEq, true_and] at ht
              subst ht
              cases hD
      | x :: xs, hl =>
        rw [show digits n ('_' :: x :: xs) = if x.isDigit then digits (10 * n + (x.toNat - '0'.toNat)) xs else none from by
          simp only [digits], step x xs (by simp at hl; omega)]
        constructor
        · rintro ⟨d, hD, rfl⟩
          exact Or.inr ⟨_, d, Or.inr rfl, hD, rfl⟩
        · rintro (⟨h, -⟩ | ⟨t, d, ht, hD, rfl⟩)
          · simp at h
          · rcases ht with rfl | ht
            · exfalso
              cases hD with
              | digit h _ => exact (digit_ne _ h).1 rfl
              | underscore h _ => exact (digit_ne _ h).1 rfl
            · simp only [List.cons.injEq, true_and] at ht
              subst ht
              exact ⟨d, hD, rfl⟩
    · have : digits n (c :: rest) = if c.isDigit then digits (10 * n + (c.toNat - '0'.toNat)) rest else none := by
        conv_lhs => unfold digits
        split
        · simp_all
        · simp_all
        · simp_all
      rw [this, step c rest (by simp at hl; omega)]
      constructor
      · rintro ⟨d, hD, rfl⟩
        exact Or.inr ⟨_, d, Or.inl rfl, hD, rfl⟩
      · rintro (⟨h, -⟩ | ⟨t, d, ht, hD, rfl⟩)
        · simp at h
        · rcases ht with rfl | ht
          · exact ⟨d, hD, rfl⟩
          · simp only [List.cons.injEq] at ht
            exact absurd ht.1 hu

theorem natOf_iff (cs : List Char) (m : Nat) : natOf cs = some m ↔ ∃ d, Digits cs d ∧ m = value d := by
  match cs with
  | [] => exact ⟨fun h => by simp [natOf] at h, fun ⟨d, h, _⟩ => by cases h⟩
  | c :: cs =>
    by_cases hc : c.isDigit
    · have hd := (isDigit_iff c).1 hc
      simp only [natOf, hc, if_true, digits_iff, digit_value c hd]
      constructor
      · rintro (⟨rfl, rfl⟩ | ⟨t, d, rfl | rfl, hD, rfl⟩)
        · exact ⟨[c], .last hd, by simp [value]⟩
        · exact ⟨c :: d, .digit hd hD, by simp [value]⟩
        · exact ⟨c :: d, .underscore hd hD, by simp [value]⟩
      · rintro ⟨d, hD, rfl⟩
        cases hD with
        | last _ => exact Or.inl ⟨rfl, by simp [value]⟩
        | digit _ h => exact Or.inr ⟨_, _, Or.inl rfl, h, by simp [value]⟩
        | underscore _ h => exact Or.inr ⟨_, _, Or.inr rfl, h, by simp [value]⟩
    · simp only [natOf, hc]
      refine ⟨fun h => by simp at h, ?_⟩
      rintro ⟨d, hD, -⟩
      exfalso
      apply hc
      rw [isDigit_iff]
      cases hD <;> assumption

/-- The ends of digits are not blank. -/
theorem digits_ends {t d : List Char} (h : Digits t d) : ∃ c c' : Char, c ∈ Numerals.digits ∧ c' ∈ Numerals.digits ∧ (∃ r, t = c :: r) ∧ ∃ r, t = r ++ [c'] := by
  induction h with
  | @last c h => exact ⟨c, c, h, h, ⟨[], rfl⟩, ⟨[], rfl⟩⟩
  | @digit c t d h _ ih =>
    obtain ⟨_, c', _, h', _, r, rfl⟩ := ih
    exact ⟨c, c', h, h', ⟨_, rfl⟩, ⟨c :: r, rfl⟩⟩
  | @underscore c t d h _ ih =>
    obtain ⟨_, c', _, h', _, r, rfl⟩ := ih
    exact ⟨c, c', h, h', ⟨_, rfl⟩, ⟨c :: '_' :: r, rfl⟩⟩

theorem dropWhile_pre (pre rest : List Char) (h : ∀ c ∈ pre, isSpace c = true) (h' : ∀ c r, rest = c :: r → isSpace c = false) :
    (pre ++ rest).dropWhile isSpace = rest := by
  induction pre with
  | nil =>
    cases rest with
    | nil => rfl
    | cons c r => simp [h' c r rfl]
  | cons c pre ih =>
    rw [List.cons_append, List.dropWhile_cons, if_pos (h c (by simp))]
    exact ih fun x hx => h x (by simp [hx])

theorem strip_append (pre body post : List Char) (h1 : ∀ c ∈ pre, isSpace c = true) (h2 : ∀ c ∈ post, isSpace c = true)
    (hb : ∃ c r, body = c :: r ∧ isSpace c = false) (hb' : ∃ c r, body = r ++ [c] ∧ isSpace c = false) : strip (pre ++ body ++ post) = body := by
  obtain ⟨c, r, rfl, hc⟩ := hb
  obtain ⟨c', r', hr, hc'⟩ := hb'
  unfold strip
  rw [List.append_assoc, dropWhile_pre pre _ h1 (by intro x y hxy; simp at hxy; rw [← hxy.1]; exact hc), List.reverse_append,
    dropWhile_pre _ _ (by simpa using h2) (by intro x y hxy; rw [hr] at hxy; simp at hxy; rw [← hxy.1]; exact hc'), List.reverse_reverse]

theorem mem_takeWhile {l : List Char} {c : Char} (h : c ∈ l.takeWhile isSpace) : isSpace c = true := by
  induction l with
  | nil => simp at h
  | cons x l ih =>
    rw [List.takeWhile_cons] at h
    split at h
    · rename_i hx
      rcases List.mem_cons.1 h with rfl | h
      · exact hx
      · exact ih h
    · simp at h

theorem strip_parts (s : List Char) : ∃ pre post, s = pre ++ strip s ++ post ∧ (∀ c ∈ pre, isSpace c = true) ∧ ∀ c ∈ post, isSpace c = true := by
  refine ⟨s.takeWhile isSpace, ((s.dropWhile isSpace).reverse.takeWhile isSpace).reverse, ?_, fun c hc => mem_takeWhile hc, ?_⟩
  · unfold strip
    rw [List.append_assoc, ← List.reverse_append, List.takeWhile_append_dropWhile, List.reverse_reverse, List.takeWhile_append_dropWhile]
  · intro c hc
    rw [List.mem_reverse] at hc
    exact mem_takeWhile hc

theorem pyInt_iff (s : String) (n : Int) : pyInt s = some n ↔ Means s n := by
  constructor
  · intro h
    obtain ⟨pre, post, hs, h1, h2⟩ := strip_parts s.toList
    have h1' : ∀ c ∈ pre, c ∈ blanks := fun c hc => (isSpace_iff c).1 (h1 c hc)
    have h2' : ∀ c ∈ post, c ∈ blanks := fun c hc => (isSpace_iff c).1 (h2 c hc)
    unfold pyInt at h
    split at h
    · rename_i cs hcs
      obtain ⟨m, hm, rfl⟩ := Option.map_eq_some_iff.1 h
      obtain ⟨d, hD, rfl⟩ := (natOf_iff _ _).1 hm
      exact ⟨pre, _, post, cs, d, hs, h1', h2', hD, Or.inr (Or.inr ⟨hcs, rfl⟩)⟩
    · rename_i cs hcs
      obtain ⟨m, hm, rfl⟩ := Option.map_eq_some_iff.1 h
      obtain ⟨d, hD, rfl⟩ := (natOf_iff _ _).1 hm
      exact ⟨pre, _, post, cs, d, hs, h1', h2', hD, Or.inr (Or.inl ⟨hcs, rfl⟩)⟩
    · obtain ⟨m, hm, rfl⟩ := Option.map_eq_some_iff.1 h
      obtain ⟨d, hD, rfl⟩ := (natOf_iff _ _).1 hm
      exact ⟨pre, _, post, _, d, hs, h1', h2', hD, Or.inl ⟨rfl, rfl⟩⟩
  · rintro ⟨pre, body, post, t, d, hs, h1, h2, hD, hb⟩
    have h1' : ∀ c ∈ pre, isSpace c = true := fun c hc => (isSpace_iff c).2 (h1 c hc)
    have h2' : ∀ c ∈ post, isSpace c = true := fun c hc => (isSpace_iff c).2 (h2 c hc)
    have hn := (natOf_iff t (value d)).2 ⟨d, hD, rfl⟩
    obtain ⟨c, c', hc, hc', ⟨r, hr⟩, r', hr'⟩ := digits_ends hD
    rcases hb with ⟨rfl, rfl⟩ | ⟨rfl, rfl⟩ | ⟨rfl, rfl⟩
    · have hst : strip s.toList = body := by
        rw [hs]
        exact strip_append _ _ _ h1' h2' ⟨c, r, hr, (digit_ne c hc).2.2.2⟩ ⟨c', r', hr', (digit_ne c' hc').2.2.2⟩
      unfold pyInt
      rw [hst]
      split
      · rename_i cs
        rw [List.cons.injEq] at hr
        exact absurd hr.1.symm (digit_ne c hc).2.1
      · rename_i cs
        rw [List.cons.injEq] at hr
        exact absurd hr.1.symm (digit_ne c hc).2.2.1
      · rw [hn]
        rfl
    · have hst : strip s.toList = '+' :: t := by
        rw [hs]
        exact strip_append _ _ _ h1' h2' ⟨'+', t, rfl, by decide⟩ ⟨c', '+' :: r', by rw [hr']; rfl, (digit_ne c' hc').2.2.2⟩
      simp [pyInt, hst, hn]
    · have hst : strip s.toList = '-' :: t := by
        rw [hs]
        exact strip_append _ _ _ h1' h2' ⟨'-', t, rfl, by decide⟩ ⟨c', '-' :: r', by rw [hr']; rfl, (digit_ne c' hc').2.2.2⟩
      simp [pyInt, hst, hn]

end Verif.Options
