import Verif.Model.DataTable
import Verif.Spec.DataTable
import Verif.Lemmas.Cli
import Verif.Lemmas.UnitText
import Mathlib.Tactic.Linarith

/-!
Lemmas for C160.
-/

namespace Verif.DataTable
open Verif.Text

theorem bars_append (a b : List Char) : ∀ k, bars k (a ++ b) = bars k a ++ bars (k + a.length) b := by
  induction a with
  | nil => simp [bars]
  | cons c cs ih =>
    intro k
    have e : k + 1 + cs.length = k + (cs.length + 1) := by omega
    simp only [List.cons_append, bars, ih, List.length_cons, e]
    split <;> simp

theorem bars_none (a : List Char) (h : '|' ∉ a) : ∀ k, bars k a = [] := by
  induction a with
  | nil => simp [bars]
  | cons c cs ih =>
    intro k
    simp only [List.mem_cons, not_or] at h
    simp only [bars, if_neg (Ne.symm h.1), ih h.2]

theorem padLeft_length (n : Nat) (s : List Char) : (padLeft n s).length = max n s.length := by
  simp [padLeft]; omega

theorem padLeft_bar (n : Nat) (s : List Char) (h : '|' ∉ s) : '|' ∉ padLeft n s := by
  simp [padLeft, h]

theorem padLeft_blank (n : Nat) (s : List Char) : ∃ p, Blank p ∧ padLeft n s = p ++ s :=
  ⟨_, fun _ hc => (List.mem_replicate.mp hc).2, rfl⟩

theorem round_nonneg (x : ℚ) (h : 0 ≤ x) : 0 ≤ Cli.roundHalfEven x := by
  have h1 := (Cli.round_bounds x).1
  have h2 : 0 ≤ ⌊x⌋ := Int.floor_nonneg.mpr h
  omega

theorem showInt_nonneg (z : Int) (h : 0 ≤ z) : showInt z = showNat z.natAbs := by
  unfold showInt
  rw [if_neg (by omega)]

theorem showNat_length (n : Nat) : (showNat n).length ≤ 3 ↔ n < 1000 := by
  unfold showNat
  split
  · subst_vars; simp
  · rename_i h
    simp only [List.length_map, List.length_reverse]
    rw [Nat.digits_length_le_iff (by norm_num)]
    norm_num

theorem numeral (n : Nat) : Numeral (showNat n) n := by
  refine ⟨showNat_ne_nil n, fun c hc => ?_, Verif.Units.natOf_showNat n⟩
  have := showNat_digits n c hc
  simpa [isDigit] using this

theorem bytes_spec (x : ℚ) (h : 0 ≤ x) : ∃ n p s, Nearest x n ∧ Blank p ∧ Numeral s n ∧ bytes x = p ++ s := by
  obtain ⟨p, hp, he⟩ := padLeft_blank 3 (showNat (Cli.roundHalfEven x).natAbs)
  refine ⟨(Cli.roundHalfEven x).natAbs, p, _, ?_, hp, numeral _, ?_⟩
  · have h1 := Cli.round_near x
    have h2 : (((Cli.roundHalfEven x).natAbs : Nat) : ℚ) = ((Cli.roundHalfEven x : Int) : ℚ) := by
      rw [← Int.cast_natCast, Int.natAbs_of_nonneg (round_nonneg x h)]
    rw [Nearest, h2]
    exact h1
  · rw [bytes, showInt_nonneg _ (round_nonneg x h), he]

theorem bytes_bar (x : ℚ) (h : 0 ≤ x) : '|' ∉ bytes x := by
  refine padLeft_bar _ _ ?_
  rw [showInt_nonneg _ (round_nonneg x h)]
  intro hc
  have := showNat_digits _ _ hc
  revert this
  decide

theorem bytes_length (x : ℚ) (h : 0 ≤ x) : (bytes x).length = 3 ↔ Cli.roundHalfEven x < 1000 := by
  have h0 := round_nonneg x h
  have h1 := showNat_length (Cli.roundHalfEven x).natAbs
  rw [bytes, padLeft_length, showInt_nonneg _ h0]
  omega

theorem bytes_length_ge (x : ℚ) : 3 ≤ (bytes x).length := by
  rw [bytes, padLeft_length]; omega

/-- Rounding half to even stays below 1000 exactly below 999.5. -/
theorem round_lt (x : ℚ) : Cli.roundHalfEven x < 1000 ↔ x < 1999 / 2 := by
  have hf := Int.floor_le x
  have hl := Int.lt_floor_add_one x
  constructor
  · intro h
    by_contra hx
    push Not at hx
    have h9 : (999 : Int) ≤ ⌊x⌋ := Int.le_floor.mpr (by push_cast; linarith)
    unfold Cli.roundHalfEven at h
    simp only at h
    rcases eq_or_lt_of_le h9 with he | hlt
    · rw [← he] at h
      split at h
      · push_cast at *; linarith
      · split at h
        · omega
        · norm_num at h
    · have := (Cli.round_bounds x).1
      unfold Cli.roundHalfEven at this
      simp only at this
      omega
  · intro h
    have h9 : ⌊x⌋ < 1000 := Int.floor_lt.mpr (by push_cast; linarith)
    rcases eq_or_lt_of_le (Int.lt_add_one_iff.mp h9 : ⌊x⌋ ≤ 999) with he | hlt
    · unfold Cli.roundHalfEven
      simp only [he]
      rw [if_pos (by push_cast; linarith)]
      norm_num
    · have := (Cli.round_bounds x).2
      omega

theorem row_line (a b : List Char) (x y : ℚ) : ∃ line, row a b x y = line ++ ['\n'] ∧
    line = padLeft 7 (a ++ ['-'] ++ b) ++ [' ', '|', ' '] ++ bytes x ++ [' ', 'B', '/', 'C', 'L', ' ', '|', ' '] ++ bytes y ++
      [' ', 'B', '/', 'C', 'L', ' ', '|'] := ⟨_, by simp [row], rfl⟩

theorem line_bars (a b u v : List Char) (ha : '|' ∉ a) (hb : '|' ∉ b) (hu : '|' ∉ u) (hv : '|' ∉ v) :
    bars 0 (padLeft 7 (a ++ ['-'] ++ b) ++ [' ', '|', ' '] ++ u ++ [' ', 'B', '/', 'C', 'L', ' ', '|', ' '] ++ v ++
      [' ', 'B', '/', 'C', 'L', ' ', '|']) =
    [max 7 (a.length + b.length + 1) + 1, max 7 (a.length + b.length + 1) + u.length + 9,
      max 7 (a.length + b.length + 1) + u.length + v.length + 17] := by
  have h1 : '|' ∉ padLeft 7 (a ++ ['-'] ++ b) := padLeft_bar _ _ (by simp [ha, hb])
  have hl : (padLeft 7 (a ++ ['-'] ++ b)).length = max 7 (a.length + b.length + 1) := by
    rw [padLeft_length]; simp; omega
  simp only [bars_append, bars_none _ h1, bars_none _ hu, bars_none _ hv, List.length_append, hl]
  simp [bars]
  omega

/-- What a line of the table is: it belongs to two adjacent levels and has the bytes of the second, to the nearest byte, and its bars
are below those of the heading exactly if the names and the numbers are short enough. -/
def IsLine (cl x y : ℚ) (a b line : List Char) : Prop :=
  (∃ n m, Nearest (x * cl) n ∧ Nearest (y * cl) m ∧ Says line a b n m) ∧
  ('|' ∉ a → '|' ∉ b →
    (bars 0 line = bars 0 columns ↔ a.length + b.length ≤ 6 ∧ x * cl < 1999 / 2 ∧ y * cl < 1999 / 2))

theorem isLine_row (cl x y : ℚ) (a b : List Char) (hc : 0 < cl) (hx : 0 ≤ x) (hy : 0 ≤ y) :
    ∃ line, row a b (x * cl) (y * cl) = line ++ ['\n'] ∧ IsLine cl x y a b line := by
  obtain ⟨line, h1, h2⟩ := row_line a b (x * cl) (y * cl)
  have hx' : 0 ≤ x * cl := mul_nonneg hx hc.le
  have hy' : 0 ≤ y * cl := mul_nonneg hy hc.le
  refine ⟨line, h1, ?_, ?_⟩
  · obtain ⟨n, q, s, hn, hq, hs, e1⟩ := bytes_spec _ hx'
    obtain ⟨m, r, t, hm, hr, ht, e2⟩ := bytes_spec _ hy'
    obtain ⟨p, hp, e3⟩ := padLeft_blank 7 (a ++ ['-'] ++ b)
    exact ⟨n, m, hn, hm, p, q, r, s, t, hp, hq, hr, hs, ht, by rw [h2, e1, e2, e3]; simp⟩
  · intro ha hb
    have hcol : bars 0 columns = [8, 19, 30] := by decide
    have l1 := bytes_length _ hx'
    have l2 := bytes_length _ hy'
    have g1 := bytes_length_ge (x * cl)
    have g2 := bytes_length_ge (y * cl)
    rw [h2, line_bars a b _ _ ha hb (bytes_bar _ hx') (bytes_bar _ hy'), hcol, ← round_lt, ← round_lt, ← l1, ← l2]
    simp only [List.cons.injEq, and_true]
    omega

theorem rows_lines (cl : ℚ) (loads stores : List ℚ) (hc : 0 < cl) (hl : ∀ x ∈ loads, 0 ≤ x) (hs : ∀ x ∈ stores, 0 ≤ x)
    (ls : List (List Char)) : ∀ prev i t, rows cl loads stores prev i ls = .ok t →
    ∃ lines, t = text lines ∧ lines.length = ls.length ∧ ∀ j a b, (prev :: ls)[j]? = some a → ls[j]? = some b →
      ∃ line x y, lines[j]? = some line ∧ loads[i + j]? = some x ∧ stores[i + j]? = some y ∧ IsLine cl x y a b line := by
  induction ls with
  | nil =>
    intro prev i t h
    simp only [rows, Except.ok.injEq] at h
    exact ⟨[], by simp [← h, text], rfl, by simp⟩
  | cons l ls ih =>
    intro prev i t h
    simp only [rows] at h
    split at h
    · rename_i x y hx hy
      split at h
      · rename_i r hr
        simp only [Except.ok.injEq] at h
        obtain ⟨lines, e1, e2, e3⟩ := ih _ _ _ hr
        obtain ⟨line, f1, f2⟩ := isLine_row cl x y prev l hc (hl _ (List.mem_of_getElem? hx)) (hs _ (List.mem_of_getElem? hy))
        refine ⟨line :: lines, by simp [← h, text, f1, e1], by simp [e2], ?_⟩
        intro j a b ha hb
        cases j with
        | zero =>
          simp only [List.getElem?_cons_zero, Option.some.injEq] at ha hb
          subst ha hb
          exact ⟨line, x, y, by simp, by simpa using hx, by simpa using hy, f2⟩
        | succ j =>
          simp only [List.getElem?_cons_succ] at ha hb
          obtain ⟨line', x', y', g1, g2, g3, g4⟩ := e3 j a b ha hb
          exact ⟨line', x', y', by simpa using g1, by rw [← g2]; congr 1; omega, by rw [← g3]; congr 1; omega, g4⟩
      · simp at h
    · simp at h

theorem rows_ok_iff (cl : ℚ) (loads stores : List ℚ) (ls : List (List Char)) : ∀ prev i,
    (∃ t, rows cl loads stores prev i ls = .ok t) ↔ ls = [] ∨ i + ls.length ≤ loads.length ∧ i + ls.length ≤ stores.length := by
  induction ls with
  | nil => intro prev i; simp [rows]
  | cons l ls ih =>
    intro prev i
    have h1 := ih l (i + 1)
    by_cases hb : i < loads.length ∧ i < stores.length
    · simp only [rows, List.getElem?_eq_getElem hb.1, List.getElem?_eq_getElem hb.2, reduceCtorEq, false_or, List.length_cons]
      cases hr : rows cl loads stores l (i + 1) ls with
      | ok r =>
        rw [hr] at h1
        have h2 := h1.mp ⟨r, rfl⟩
        simp only [Except.ok.injEq, exists_eq', true_iff]
        rcases h2 with rfl | h2
        · simp; omega
        · omega
      | error e =>
        rw [hr] at h1
        simp only [reduceCtorEq, exists_false, false_iff, not_or] at h1 ⊢
        omega
    · have : ¬ (∃ t, rows cl loads stores prev i (l :: ls) = .ok t) := by
        rintro ⟨t, ht⟩
        simp only [rows] at ht
        split at ht
        · rename_i x y hx hy
          exact hb ⟨(List.getElem?_eq_some_iff.mp hx).1, (List.getElem?_eq_some_iff.mp hy).1⟩
        · simp at ht
      simp only [this, false_iff, reduceCtorEq, false_or, List.length_cons]
      omega

end Verif.DataTable
