import Verif.Lemmas.DataTable

/-!
C160: the table of data transfers of the ECM report.
-/

namespace Verif.DataTable

/-- The claim of C160 about columns: the bars of all lines are below those of the heading. -/
def C160Claim : Prop :=
  ∀ cl loads stores levels lines, (0 : ℚ) < cl → (∀ x ∈ loads, (0 : ℚ) ≤ x) → (∀ x ∈ stores, (0 : ℚ) ≤ x) →
    (∀ l ∈ levels, '|' ∉ l ∧ '\n' ∉ l) → table cl loads stores levels = .ok (text (title :: columns :: lines)) →
    (∀ l ∈ lines, '\n' ∉ l) → ∀ l ∈ lines, bars 0 l = bars 0 columns

/-- C160, partial: the table has a line for each pair of adjacent levels, in their order, with the bytes loaded and stored to the nearest
byte, and its bars are below those of the heading exactly if the names have at most six characters and there are less than 999.5 bytes.
Missing: the bars for longer names and larger numbers (`C160_negation`). -/
theorem C160_table_partial (cl : ℚ) (loads stores : List ℚ) (levels : List (List Char)) (t : List Char) (hc : 0 < cl)
    (hl : ∀ x ∈ loads, 0 ≤ x) (hs : ∀ x ∈ stores, 0 ≤ x) (h : table cl loads stores levels = .ok t) :
    ∃ lines, t = text (title :: columns :: lines) ∧ lines.length = levels.length - 1 ∧
      ∀ j a b, levels[j]? = some a → levels[j + 1]? = some b →
        ∃ line x y, lines[j]? = some line ∧ loads[j + 1]? = some x ∧ stores[j + 1]? = some y ∧
          (∃ n m, Nearest (x * cl) n ∧ Nearest (y * cl) m ∧ Says line a b n m) ∧
          ('|' ∉ a → '|' ∉ b →
            (bars 0 line = bars 0 columns ↔ a.length + b.length ≤ 6 ∧ x * cl < 1999 / 2 ∧ y * cl < 1999 / 2)) := by
  have hh : heading = text [title, columns] := by decide
  cases levels with
  | nil =>
    simp only [table, Except.ok.injEq] at h
    exact ⟨[], by rw [← h, hh], rfl, by simp⟩
  | cons l ls =>
    simp only [table] at h
    split at h
    · rename_i r hr
      simp only [Except.ok.injEq] at h
      obtain ⟨lines, e1, e2, e3⟩ := rows_lines cl loads stores hc hl hs ls l 1 r hr
      refine ⟨lines, by rw [← h, hh, e1]; simp [text], by simpa using e2, ?_⟩
      intro j a b ha hb
      obtain ⟨line, x, y, g1, g2, g3, g4⟩ := e3 j a b ha (by simpa using hb)
      exact ⟨line, x, y, g1, by rw [← g2]; congr 1; omega, by rw [← g3]; congr 1; omega, g4⟩
    · simp at h

/-- C160: the table is written exactly if there are numbers for all levels, or at most one level. -/
theorem C160_written_iff (cl : ℚ) (loads stores : List ℚ) (levels : List (List Char)) :
    (∃ t, table cl loads stores levels = .ok t) ↔
      levels.length ≤ 1 ∨ levels.length ≤ loads.length ∧ levels.length ≤ stores.length := by
  cases levels with
  | nil => simp [table]
  | cons l ls =>
    have h1 := rows_ok_iff cl loads stores ls l 1
    have h2 : (∃ t, table cl loads stores (l :: ls) = .ok t) ↔ ∃ t, rows cl loads stores l 1 ls = .ok t := by
      simp only [table]
      cases rows cl loads stores l 1 ls <;> simp
    rw [h2, h1, ← List.length_eq_zero_iff, List.length_cons]
    omega

/-- Sixteen cache lines of 64 bytes: the bars of the line are not below those of the heading. -/
theorem C160_negation : ¬ C160Claim := by
  intro h
  have hx : Cli.roundHalfEven (16 * 64) = 1024 := by
    have := Cli.round_int 1024
    norm_num at this ⊢
    exact this
  have h0 : Cli.roundHalfEven (1 * 64) = 64 := by
    have := Cli.round_int 64
    norm_num at this ⊢
    exact this
  have := h 64 [0, 16] [0, 1] [['L', '1'], ['L', '2']]
    [[' ', ' ', 'L', '1', '-', 'L', '2', ' ', '|', ' ', '1', '0', '2', '4', ' ', 'B', '/', 'C', 'L', ' ', '|', ' ', ' ', '6', '4', ' ',
      'B', '/', 'C', 'L', ' ', '|']]
    (by norm_num) (by simp) (by simp) (by decide)
    (by
      simp only [table, rows, List.getElem?_cons_succ, List.getElem?_cons_zero, row, bytes, hx, h0]
      rfl) (by decide) _ (List.mem_singleton.mpr rfl)
  revert this
  decide

/-- The hypotheses of `C160_table_partial` can be met: three levels. -/
example : ∃ t, table 64 [0, 3, 2] [0, 1, 1] [['L', '1'], ['L', '2'], ['M', 'E', 'M']] = .ok t :=
  (C160_written_iff _ _ _ _).mpr (.inr (by decide))

/-- One level without numbers is written, two are not. -/
example : (∃ t, table 64 [] [] [['L', '1']] = .ok t) ∧ ¬ ∃ t, table 64 [0] [0, 1] [['L', '1'], ['L', '2']] = .ok t := by
  simp only [C160_written_iff]
  decide

end Verif.DataTable
