import Verif.Model.Asm
import Verif.Lemmas.Text
import Mathlib.Order.Defs.LinearOrder
import Mathlib.Data.List.Lex
import Mathlib.Tactic.ByContra

/-!
C37, C38, C39: block selection, marker insertion and the cache of increments.
-/

namespace Verif.Asm

/-! ### C37 -/

theorem foldl_best {L B M : Type} [LinearOrder M] (metric : B → M) (rest : List (L × B)) (l0 : L) (m0 : M) :
    let f := fun (best : L × M) (lb : L × B) => if best.2 < metric lb.2 then (lb.1, metric lb.2) else best
    let r := rest.foldl f (l0, m0)
    (∀ lb ∈ rest, metric lb.2 ≤ r.2) ∧ m0 ≤ r.2 ∧
      ((r = (l0, m0)) ∨ ∃ pre lb post, rest = pre ++ lb :: post ∧ r = (lb.1, metric lb.2) ∧
        m0 < metric lb.2 ∧ ∀ lb' ∈ pre, metric lb'.2 < metric lb.2) := by
  intro f r
  induction rest generalizing l0 m0 with
  | nil => exact ⟨by simp, le_refl _, Or.inl rfl⟩
  | cons x rest ih =>
    have hr : r = rest.foldl f (f (l0, m0) x) := rfl
    by_cases hx : m0 < metric x.2
    · have hf : f (l0, m0) x = (x.1, metric x.2) := by simp [f, hx]
      rw [hf] at hr
      obtain ⟨h1, h2, h3⟩ := ih x.1 (metric x.2)
      rw [← hr] at h1 h2 h3
      refine ⟨?_, le_of_lt (lt_of_lt_of_le hx h2), Or.inr ?_⟩
      · intro lb hlb
        rcases List.mem_cons.mp hlb with rfl | hlb
        · exact h2
        · exact h1 lb hlb
      · rcases h3 with h3 | ⟨pre, lb, post, e1, e2, e3, e4⟩
        · exact ⟨[], x, rest, rfl, h3, hx, by simp⟩
        · refine ⟨x :: pre, lb, post, by simp [e1], e2, lt_trans hx e3, ?_⟩
          intro lb' hlb'
          rcases List.mem_cons.mp hlb' with rfl | hlb'
          · exact e3
          · exact e4 lb' hlb'
    · have hf : f (l0, m0) x = (l0, m0) := by simp [f, hx]
      rw [hf] at hr
      obtain ⟨h1, h2, h3⟩ := ih l0 m0
      rw [← hr] at h1 h2 h3
      refine ⟨?_, h2, ?_⟩
      · intro lb hlb
        rcases List.mem_cons.mp hlb with rfl | hlb
        · exact le_trans (le_of_not_gt hx) h2
        · exact h1 lb hlb
      · rcases h3 with h3 | ⟨pre, lb, post, e1, e2, e3, e4⟩
        · exact Or.inl h3
        · refine Or.inr ⟨x :: pre, lb, post, by simp [e1], e2, e3, ?_⟩
          intro lb' hlb'
          rcases List.mem_cons.mp hlb' with rfl | hlb'
          · exact lt_of_le_of_lt (le_of_not_gt hx) e3
          · exact e4 lb' hlb'

/-- C37: the selected block has the largest metric, and every earlier block a smaller one. -/
theorem C37_first_best {L B M : Type} [LinearOrder M] (metric : B → M) (blocks : List (L × B)) (label : L)
    (h : selectBest metric blocks = .ok label) :
    ∃ pre b post, blocks = pre ++ (label, b) :: post ∧ (∀ x ∈ pre, metric x.2 < metric b) ∧
      ∀ x ∈ post, metric x.2 ≤ metric b := by
  cases blocks with
  | nil => simp [selectBest] at h
  | cons x rest =>
    obtain ⟨l0, b0⟩ := x
    simp only [selectBest, Except.ok.injEq] at h
    obtain ⟨h1, h2, h3⟩ := foldl_best metric rest l0 (metric b0)
    rcases h3 with h3 | ⟨pre, lb, post, e1, e2, e3, e4⟩
    · rw [h3] at h h1
      exact ⟨[], b0, rest, by simp [← h], by simp, h1⟩
    · rw [e2] at h h1
      refine ⟨(l0, b0) :: pre, lb.2, post, by simp [e1, ← h], ?_, ?_⟩
      · intro y hy
        rcases List.mem_cons.mp hy with rfl | hy
        · exact e3
        · exact e4 y hy
      · intro y hy
        exact h1 y (by simp [e1, hy])

/-- C37: a selection is made exactly if there is a block. -/
theorem C37_empty {L B M : Type} [LinearOrder M] (metric : B → M) (blocks : List (L × B)) :
    (blocks = [] → selectBest metric blocks = .error "ValueError") ∧
    (blocks ≠ [] → ∃ label, selectBest metric blocks = .ok label) := by
  cases blocks with
  | nil => simp [selectBest]
  | cons x rest => simp [selectBest]

/-- C37: lines that are no instructions (comments, labels, directives) do not influence the metrics. -/
theorem C37_only_instructions (block : List Line) :
    metricX86 (block.filter fun l => l.mnemonic.isSome) = metricX86 block ∧
    metricA64 (block.filter fun l => l.mnemonic.isSome) = metricA64 block := by
  have hc : ∀ p, countInstr p (block.filter fun l => l.mnemonic.isSome) = countInstr p block := by
    intro p
    unfold countInstr
    rw [List.countP_filter]
    apply List.countP_congr
    intro l _
    cases l.mnemonic <;> simp
  have hr : ∀ p, regsOf p (block.filter fun l => l.mnemonic.isSome) = regsOf p block := by
    intro p
    clear hc
    unfold regsOf
    induction block with
    | nil => rfl
    | cons l ls ih =>
      by_cases hl : l.mnemonic.isSome <;> simp_all
  have hv : ((block.filter fun l => l.mnemonic.isSome).map fun l =>
        if l.mnemonic.isSome then l.operands.countP isVectorOp else 0).sum =
      (block.map fun l => if l.mnemonic.isSome then l.operands.countP isVectorOp else 0).sum := by
    clear hc hr
    induction block with
    | nil => rfl
    | cons l ls ih =>
      by_cases hl : l.mnemonic.isSome <;> simp_all
  simp only [metricX86, metricA64, hc, hr, hv, and_self]

/-- C37: a block with more packed instructions is preferred on x86, whatever the remaining numbers are. -/
theorem C37_packed_first (b1 b2 : List Line) (h : countInstr isPacked b1 < countInstr isPacked b2) :
    metricX86 b1 < metricX86 b2 := by
  unfold metricX86
  exact List.cons_lt_cons_iff.mpr (Or.inl h)

/-- A packed AVX instruction. -/
def packedAdd : Line := ⟨some "vaddpd", [.reg none "ymm0", .reg none "ymm1", .reg none "ymm1"], [], []⟩

/-- A scalar instruction. -/
def scalarAdd : Line := ⟨some "addsd", [.reg none "xmm0", .reg none "xmm1"], [], []⟩

example : selectBest metricX86 [("L1", [scalarAdd, scalarAdd]), ("L2", [packedAdd]), ("L3", [packedAdd])] = .ok "L2" := by
  decide +kernel

/-! ### C38 -/

/-- C38, partial: if the block is a contiguous part of the file, its first line equals no earlier line of the file and
its last line equals no earlier line, then the markers enclose exactly this block. Missing: files with equal lines
(`C38_negation`). -/
theorem C38_enclosed_partial {α : Type} (eqv : α → α → Bool) (hrefl : ∀ x, eqv x x = true)
    (pre block post start stop : List α) (first last : α) (hf : block.head? = some first)
    (hl : block.getLast? = some last)
    (h1 : ∀ x ∈ pre, eqv first x = false) (h2 : ∀ x ∈ pre ++ block.dropLast, eqv last x = false) :
    instrument eqv (pre ++ block ++ post) block start stop = .ok (pre ++ start ++ block ++ stop ++ post) := by
  obtain ⟨rest, hb⟩ : ∃ rest, block = first :: rest := by
    cases block with
    | nil => simp at hf
    | cons x xs => exact ⟨xs, by simpa using hf⟩
  have hb' : block = block.dropLast ++ [last] := by
    have hne : block ≠ [] := by rw [hb]; simp
    have := List.dropLast_append_getLast hne
    rw [List.getLast?_eq_some_getLast hne] at hl
    simp only [Option.some.injEq] at hl
    rw [hl] at this
    exact this.symm
  have hi : (pre ++ block ++ post).findIdx? (eqv first) = some pre.length := by
    rw [hb, List.append_assoc, List.findIdx?_append]
    have : pre.findIdx? (eqv first) = none := by
      rw [List.findIdx?_eq_none_iff]
      intro x hx
      rw [h1 x hx]
    rw [this]
    simp [List.findIdx?_cons, hrefl]
  have hj : (pre ++ block ++ post).findIdx? (eqv last) = some (pre.length + block.dropLast.length) := by
    conv_lhs => rw [hb']
    rw [show pre ++ (block.dropLast ++ [last]) ++ post = (pre ++ block.dropLast) ++ (last :: post) by simp,
      List.findIdx?_append]
    have : (pre ++ block.dropLast).findIdx? (eqv last) = none := by
      rw [List.findIdx?_eq_none_iff]
      intro x hx
      rw [h2 x hx]
    rw [this]
    simp [List.findIdx?_cons, hrefl]
  have hlen : pre.length + block.dropLast.length + 1 = (pre ++ block).length := by
    have : block.length = block.dropLast.length + 1 := by
      have := congrArg List.length hb'
      rwa [List.length_append] at this
    rw [List.length_append, this]; omega
  unfold instrument
  simp only [hf, hl, hi, hj, hlen]
  have e1 : (pre ++ block ++ post).take pre.length = pre := by rw [List.append_assoc, List.take_left]
  rw [List.take_left, List.drop_left, List.drop_left, e1]

/-- C38: whatever equality is used, removing the markers again gives the original lines, if the end is found at or
after the start. -/
theorem C38_nothing_lost {α : Type} (eqv : α → α → Bool) (lines block start stop out : List α) (i j : Nat) (first last : α)
    (hf : block.head? = some first) (hl : block.getLast? = some last)
    (hi : lines.findIdx? (eqv first) = some i) (hj : lines.findIdx? (eqv last) = some j) (hij : i ≤ j + 1)
    (h : instrument eqv lines block start stop = .ok out) :
    ∃ a b c, lines = a ++ b ++ c ∧ out = a ++ start ++ b ++ stop ++ c := by
  unfold instrument at h
  simp only [hf, hl, hi, hj, Except.ok.injEq] at h
  refine ⟨lines.take i, (lines.take (j + 1)).drop i, lines.drop (j + 1), ?_, h.symm⟩
  have : lines.take i = (lines.take (j + 1)).take i := by
    rw [List.take_take, Nat.min_eq_left hij]
  rw [this, List.take_append_drop, List.take_append_drop]

/-- C38 does not hold for files with repeated lines: the end marker is put before the start of the block and lines are
duplicated. Here lines are compared by content; the block is `mul; jmp`. -/
theorem C38_negation :
    instrument (· == ·) ["L1:", "add", "jmp", "L2:", "mul", "jmp"] ["mul", "jmp"] ["START"] ["END"] =
      .ok ["L1:", "add", "jmp", "L2:", "START", "END", "L2:", "mul", "jmp"] ∧
    ["L1:", "add", "jmp", "L2:", "mul", "jmp"] = ["L1:", "add", "jmp", "L2:"] ++ ["mul", "jmp"] ++ [] := by
  decide

example : instrument (fun a b : Nat × String => decide (a = b))
    [(1, "L1:"), (2, "add"), (3, "jmp"), (4, "L2:"), (5, "mul"), (6, "jmp"), (7, "ret")] [(5, "mul"), (6, "jmp")]
    [(0, "START")] [(0, "END")] =
    .ok [(1, "L1:"), (2, "add"), (3, "jmp"), (4, "L2:"), (0, "START"), (5, "mul"), (6, "jmp"), (0, "END"), (7, "ret")] := by
  decide

/-! ### C39 -/

/-- The lines of a cache file that belong to a block: first word and second word. -/
def Entry (content : List Char) (hash value : List Char) : Prop :=
  ∃ l ∈ Text.splitNl content, ∃ rest, Text.words l = hash :: value :: rest

theorem findInLines_append (hash : List Char) (a b : List (List Char)) :
    (∀ l ∈ a, ∀ v rest, Text.words l ≠ hash :: v :: rest) → findInLines hash (a ++ b) = findInLines hash b := by
  intro h
  induction a with
  | nil => rfl
  | cons l a ih =>
    have ih := ih fun l' hl' => h l' (by simp [hl'])
    simp only [List.cons_append, findInLines]
    split
    · rename_i h' v rest he
      split
      · rename_i hh
        exact absurd (hh ▸ he) (h l (by simp) v rest)
      · exact ih
    · exact ih

theorem findInLines_append_hit (hash : List Char) (a b : List (List Char)) (l : List Char) (hl : l ∈ a) (v : List Char)
    (rest : List (List Char)) (hw : Text.words l = hash :: v :: rest) :
    findInLines hash (a ++ b) = findInLines hash a := by
  induction a with
  | nil => simp at hl
  | cons l' a ih =>
    by_cases he : l = l'
    · subst he
      simp [findInLines, hw]
    · have hl : l ∈ a := by
        rcases List.mem_cons.mp hl with h | h
        · exact absurd h he
        · exact h
      have ih := ih hl
      simp only [List.cons_append, findInLines]
      split
      · split
        · rfl
        · exact ih
      · exact ih

/-- Hashes as `hexdigest` makes them: nonempty, no white space. -/
def IsWord (w : List Char) : Prop := w ≠ [] ∧ ∀ c ∈ w, Text.isSpace c = false

theorem cacheLine_words (hash : List Char) (inc : Int) (comment : Option (List Char)) (hh : IsWord hash) :
    ∃ l rest, cacheLine hash inc comment = l ++ ['\n'] ∧ Text.words l = hash :: Text.showInt inc :: rest := by
  unfold cacheLine
  cases comment with
  | none =>
    refine ⟨_, [], rfl, ?_⟩
    simp only
    rw [Text.words_cons _ _ hh.1 hh.2, Text.words_single _ (Text.showInt_ne_nil inc) (Text.showInt_not_space inc)]
  | some c =>
    by_cases hc : c = []
    · refine ⟨hash ++ ' ' :: Text.showInt inc, [], by simp [hc], ?_⟩
      rw [Text.words_cons _ _ hh.1 hh.2, Text.words_single _ (Text.showInt_ne_nil inc) (Text.showInt_not_space inc)]
    · refine ⟨hash ++ ' ' :: (Text.showInt inc ++ ' ' :: '#' :: c), Text.words ('#' :: c), by simp [hc], ?_⟩
      rw [Text.words_cons _ _ hh.1 hh.2, Text.words_cons _ _ (Text.showInt_ne_nil inc) (Text.showInt_not_space inc)]

theorem not_space_newline (w : List Char) (h : ∀ c ∈ w, Text.isSpace c = false) : '\n' ∉ w := by
  intro hm
  have := h _ hm
  revert this; decide

theorem cacheLine_lines (hash : List Char) (inc : Int) (comment : Option (List Char)) (hh : IsWord hash)
    (hc : ∀ c, comment = some c → '\n' ∉ c) :
    ∃ l rest, Text.splitNl (cacheLine hash inc comment) = [l, []] ∧
      Text.words l = hash :: Text.showInt inc :: rest := by
  obtain ⟨l, rest, h1, h2⟩ := cacheLine_words hash inc comment hh
  refine ⟨l, rest, ?_, h2⟩
  have hn : '\n' ∉ l := by
    have hi := not_space_newline _ (Text.showInt_not_space inc)
    have hhn := not_space_newline _ hh.2
    have h1 := h1
    unfold cacheLine at h1
    rw [← List.append_cancel_right h1]
    cases comment with
    | none => simp [hi, hhn]
    | some c =>
      have := hc c rfl
      by_cases hc : c = [] <;> simp [hc, hi, hhn, this]
  rw [h1, show l ++ ['\n'] = l ++ '\n' :: [] from rfl, Text.splitNl_append, Text.splitNl_line l hn]
  rfl

/-- A file is empty or ends with a newline. -/
def Complete (content : List Char) : Prop := content = [] ∨ ∃ s, content = s ++ ['\n']

theorem store_lines (content line : List Char) (hcomp : Complete content) :
    ∃ a, (∀ l ∈ a, l ∈ Text.splitNl content) ∧ (∀ l ∈ Text.splitNl content, l ∈ a ∨ l = []) ∧
      Text.splitNl (content ++ line) = a ++ Text.splitNl line := by
  rcases hcomp with rfl | ⟨s, rfl⟩
  · exact ⟨[], by simp, by simp [Text.splitNl], rfl⟩
  · refine ⟨Text.splitNl s, ?_, ?_, ?_⟩
    · intro l hl
      rw [show s ++ ['\n'] = s ++ '\n' :: [] from rfl, Text.splitNl_append]
      simp [hl]
    · intro l hl
      rw [show s ++ ['\n'] = s ++ '\n' :: [] from rfl, Text.splitNl_append] at hl
      simpa [Text.splitNl] using hl
    · rw [List.append_assoc]
      exact Text.splitNl_append s line

/-- C39, partial: in a complete file without an entry for this block, a stored increment is found again. Missing: a second
store for the same block (`C39_negation_second`) and files without final newline (`C39_negation_incomplete`). -/
theorem C39_found_partial (hash : List Char) (inc : Int) (comment : Option (List Char)) (content : List Char)
    (hh : IsWord hash) (hc : ∀ c, comment = some c → '\n' ∉ c) (hcomp : Complete content)
    (hnew : ∀ v, ¬ Entry content hash v) :
    findIncrement hash (storeIncrement hash inc comment (some content)) = some inc := by
  obtain ⟨l, rest, h1, h2⟩ := cacheLine_lines hash inc comment hh hc
  obtain ⟨a, ha, _, hs⟩ := store_lines content (cacheLine hash inc comment) hcomp
  simp only [findIncrement, storeIncrement, Option.getD_some]
  rw [hs, findInLines_append, h1]
  · simp [findInLines, h2, Text.parseInt_showInt]
  · intro l' hl' v rest' hw
    exact hnew v ⟨l', ha l' hl', rest', hw⟩

/-- C39: if there is no cache file yet, a stored increment is found. -/
theorem C39_new_file (hash : List Char) (inc : Int) (comment : Option (List Char)) (hh : IsWord hash)
    (hc : ∀ c, comment = some c → '\n' ∉ c) :
    findIncrement hash (storeIncrement hash inc comment none) = some inc := by
  have := C39_found_partial hash inc comment [] hh hc (Or.inl rfl) (by
    rintro v ⟨l, hl, rest, hw⟩
    simp only [Text.splitNl, List.mem_singleton] at hl
    subst hl
    simp [Text.words, Text.wordsAux] at hw)
  simpa [storeIncrement] using this

/-- C39: storing an increment for one block leaves the lookup for every other block unchanged, in complete files. -/
theorem C39_others_partial (hash other : List Char) (inc : Int) (comment : Option (List Char)) (content : List Char)
    (hh : IsWord hash) (hc : ∀ c, comment = some c → '\n' ∉ c) (hcomp : Complete content) (hne : other ≠ hash) :
    findIncrement other (storeIncrement hash inc comment (some content)) = findIncrement other (some content) := by
  obtain ⟨l, rest, h1, h2⟩ := cacheLine_lines hash inc comment hh hc
  obtain ⟨a, ha, ha', hs⟩ := store_lines content (cacheLine hash inc comment) hcomp
  simp only [findIncrement, storeIncrement, Option.getD_some]
  have hmiss : findInLines other [l, []] = none := by
    have he : Text.words ([] : List Char) = [] := rfl
    simp [findInLines, h2, Ne.symm hne, he]
  rw [hs, h1]
  have key : findInLines other (a ++ [l, []]) = findInLines other a := by
    by_cases hex : ∃ l' ∈ a, ∃ v rest, Text.words l' = other :: v :: rest
    · obtain ⟨l', hl', v, rest', hw⟩ := hex
      exact findInLines_append_hit other a _ l' hl' v rest' hw
    · rw [findInLines_append _ _ _ (fun l' hl' v rest' hw => hex ⟨l', hl', v, rest', hw⟩), hmiss]
      have := findInLines_append other a [] (fun l' hl' v rest' hw => hex ⟨l', hl', v, rest', hw⟩)
      rw [List.append_nil] at this
      rw [this]; rfl
  rw [key]
  rcases hcomp with rfl | ⟨s, rfl⟩
  · have : a = [] := by
      have := congrArg List.length hs
      rw [h1] at this
      simp only [List.nil_append, h1, List.length_append, List.length_cons] at this
      exact List.eq_nil_of_length_eq_zero (by omega)
    subst this
    simp [findInLines, Text.splitNl, Text.words, Text.wordsAux]
  · have hsplit : Text.splitNl (s ++ ['\n']) = Text.splitNl s ++ [[]] := by
      rw [show s ++ ['\n'] = s ++ '\n' :: [] from rfl, Text.splitNl_append]; rfl
    have ha2 : a = Text.splitNl s := by
      have h3 := hs
      rw [List.append_assoc, show ['\n'] ++ cacheLine hash inc comment = '\n' :: cacheLine hash inc comment from rfl,
        Text.splitNl_append] at h3
      exact (List.append_cancel_right h3).symm
    rw [hsplit, ha2]
    by_cases hex : ∃ l' ∈ Text.splitNl s, ∃ v rest, Text.words l' = other :: v :: rest
    · obtain ⟨l', hl', v, rest', hw⟩ := hex
      exact (findInLines_append_hit other _ _ l' hl' v rest' hw).symm
    · rw [findInLines_append _ _ _ (fun l' hl' v rest' hw => hex ⟨l', hl', v, rest', hw⟩)]
      have := findInLines_append other (Text.splitNl s) [] (fun l' hl' v rest' hw => hex ⟨l', hl', v, rest', hw⟩)
      rw [List.append_nil] at this
      rw [this]
      simp [findInLines, Text.words, Text.wordsAux]

/-- A history of stores, oldest first. -/
def storeAll : List (List Char × Int) → Option (List Char) → Option (List Char)
  | [], c => c
  | (h, v) :: rest, c => storeAll rest (storeIncrement h v none c)

theorem storeAll_append (a b : List (List Char × Int)) (c : Option (List Char)) :
    storeAll (a ++ b) c = storeAll b (storeAll a c) := by
  induction a generalizing c with
  | nil => rfl
  | cons x a ih => simp [storeAll, ih]

theorem storeAll_lines (hist : List (List Char × Int)) (hw : ∀ x ∈ hist, IsWord x.1) :
    ∃ s, (storeAll hist (some [])) = some s ∧ Complete s ∧
      ∃ ls, Text.splitNl s = ls ++ [[]] ∧
        ls.map (fun l => (Text.words l).take 2) = hist.map fun x => [x.1, Text.showInt x.2] := by
  induction hist using List.reverseRecOn with
  | nil => exact ⟨[], rfl, Or.inl rfl, [], rfl, rfl⟩
  | append_singleton hist x ih =>
    obtain ⟨s, h1, h2, ls, h3, h4⟩ := ih fun y hy => hw y (by simp [hy])
    obtain ⟨l, rest, g1, g2⟩ := cacheLine_lines x.1 x.2 none (hw x (by simp)) (by simp)
    obtain ⟨l', rest', g3, g4⟩ := cacheLine_words x.1 x.2 none (hw x (by simp))
    refine ⟨s ++ cacheLine x.1 x.2 none, ?_, Or.inr ⟨s ++ l', by rw [g3]; simp⟩, ls ++ [l], ?_, ?_⟩
    · rw [storeAll_append, h1]; rfl
    · rcases h2 with rfl | ⟨t, rfl⟩
      · have : ls = [] := by
          have := congrArg List.length h3
          simp only [Text.splitNl, List.length_append, List.length_cons, List.length_nil] at this
          exact List.eq_nil_of_length_eq_zero (by omega)
        subst this
        simp [g1]
      · rw [show t ++ ['\n'] = t ++ '\n' :: [] from rfl, Text.splitNl_append] at h3
        have h3 : Text.splitNl t = ls := by simpa [Text.splitNl] using h3
        rw [List.append_assoc, show ['\n'] ++ cacheLine x.1 x.2 none = '\n' :: cacheLine x.1 x.2 none from rfl,
          Text.splitNl_append, h3, g1]
        simp
    · simp [h4, g2]

/-- C39, what holds for whole histories: starting without a cache file, the lookup returns the value stored FIRST for
the block (the claim says last), and nothing for blocks that were never stored. -/
theorem C39_history_partial (hist : List (List Char × Int)) (hw : ∀ x ∈ hist, IsWord x.1) (hash : List Char) :
    findIncrement hash (storeAll hist (some [])) = (hist.find? fun x => x.1 = hash).map Prod.snd := by
  obtain ⟨s, h1, _, ls, h3, h4⟩ := storeAll_lines hist hw
  rw [h1]
  simp only [findIncrement, h3]
  clear h1 h3 hw
  induction hist generalizing ls with
  | nil =>
    have : ls = [] := by simpa using h4
    subst this
    simp [findInLines, Text.words, Text.wordsAux]
  | cons x hist ih =>
    cases ls with
    | nil => simp at h4
    | cons l ls =>
      simp only [List.map_cons, List.cons.injEq] at h4
      obtain ⟨h5, h6⟩ := h4
      have ih := ih ls h6
      obtain ⟨rest, hwords⟩ : ∃ rest, Text.words l = x.1 :: Text.showInt x.2 :: rest := by
        rcases hl : Text.words l with _ | ⟨w1, _ | ⟨w2, rest⟩⟩
        · simp [hl] at h5
        · simp [hl] at h5
        · rw [hl] at h5
          simp only [List.take_succ_cons, List.take_zero, List.cons.injEq, and_true] at h5
          exact ⟨rest, by rw [h5.1, h5.2]⟩
      simp only [List.cons_append, findInLines, hwords, List.find?_cons]
      by_cases hx : x.1 = hash
      · simp [hx, Text.parseInt_showInt]
      · simp [hx, ih]

/-- C39 does not hold: a second store for the same block is not seen. -/
theorem C39_negation_second : ∃ (hash : List Char) (a b : Int), IsWord hash ∧ a ≠ b ∧
    findIncrement hash (storeIncrement hash b none (storeIncrement hash a none none)) = some a := by
  refine ⟨"0a".toList, 8, 32, ⟨by decide, by decide⟩, by decide, ?_⟩
  have := C39_history_partial [("0a".toList, 8), ("0a".toList, 32)] (by
    intro x hx
    simp only [List.mem_cons, List.not_mem_nil, or_false] at hx
    rcases hx with rfl | rfl <;> exact ⟨by decide, by decide⟩) "0a".toList
  simpa [storeAll, storeIncrement] using this

/-- C39 does not hold for files that do not end with a newline: the stored value is not found, and the last entry of
the file is lost. -/
theorem C39_negation_incomplete :
    findIncrement "0b".toList (storeIncrement "0b".toList 8 none (some "0a 16".toList)) = none ∧
    findIncrement "0a".toList (some "0a 16".toList) = some 16 ∧
    findIncrement "0a".toList (storeIncrement "0b".toList 8 none (some "0a 16".toList)) = none := by
  decide +kernel

example : findIncrement "0b".toList (storeIncrement "0b".toList (-8) (some "input".toList) (some "0a 16\n\n# x\n".toList)) =
    some (-8) := by decide +kernel

end Verif.Asm
