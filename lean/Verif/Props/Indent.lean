import Verif.Lemmas.Indent

/-!
C156: the tables of a kernel.
-/

namespace Verif.Indent

open Verif.Text

/-! ### Indentation -/

/-- The claim of C156 about `prefix_indent`: all lines of the text are kept, the first one behind the prefix and all others behind the later prefix,
which is repeated if it is a single character. -/
def C156IndentClaim : Prop :=
  ∀ (pre later : List Char) (ls : List (List Char)), ls ≠ [] → '\n' ∉ pre → '\n' ∉ later → (∀ l ∈ ls, '\n' ∉ l) →
    prefixIndent pre (joinNl ls) later = text (indented pre later ls)

/-- C156: exactly when this is so: the text has one line, or a later prefix of one character is a blank (or the prefix is empty), and the last line
with its prefix is not empty. -/
theorem C156_indent_iff (pre later l : List Char) (ls : List (List Char)) (hp : '\n' ∉ pre) (hlat : '\n' ∉ later)
    (hl : ∀ x ∈ l :: ls, '\n' ∉ x) :
    prefixIndent pre (joinNl (l :: ls)) later = text (indented pre later (l :: ls)) ↔
      ∀ m ∈ ls.getLast?, (later.length = 1 → pre = [] ∨ later = [' ']) ∧ ¬ (m = [] ∧ (later = [] ∨ later.length = 1 ∧ pre = [])) := by
  rcases List.eq_nil_or_concat ls with h | ⟨ms, m, h⟩
  · subst h
    simp only [List.getLast?_nil, Option.mem_def, reduceCtorEq, false_implies, implies_true, iff_true]
    exact prefixIndent_one _ _ _ (hl l (by simp))
  · rw [List.concat_eq_append] at h
    subst h
    have hl' : (ms ++ [m]).getLast? = some m := by simp
    rw [hl']
    simp only [Option.mem_def, Option.some.injEq, forall_eq']
    rw [indented_cons]
    have hm : '\n' ∉ m := hl m (by simp)
    have hspec : '\n' ∉ repeated pre.length later := by
      unfold repeated
      split
      · intro h
        exact hlat (by rw [← List.eq_of_mem_replicate h]; simp)
      · exact hlat
    have hlines : ∀ later' : List Char, '\n' ∉ later' → ∀ x ∈ (pre ++ l) :: (ms ++ [m]).map (later' ++ ·), '\n' ∉ x := by
      intro later' h x hx
      rcases List.mem_cons.1 hx with rfl | hx
      · simp only [List.mem_append, not_or]
        exact ⟨hp, hl l (by simp)⟩
      · obtain ⟨y, hy, rfl⟩ := List.mem_map.1 hx
        simp only [List.mem_append, not_or]
        exact ⟨h, hl y (by simp only [List.mem_cons]; exact .inr hy)⟩
    by_cases hne : used pre later ++ m = []
    · -- the last line is lost
      rw [prefixIndent_short _ _ _ _ _ hl hne]
      have hu : used pre later = [] := (List.append_eq_nil_iff.1 hne).1
      have hmm : m = [] := (List.append_eq_nil_iff.1 hne).2
      have hbad : later = [] ∨ later.length = 1 ∧ pre = [] := by
        unfold used at hu
        split at hu
        · next h1 =>
          refine .inr ⟨h1, ?_⟩
          have := congrArg List.length hu
          simpa using this
        · exact .inl hu
      constructor
      · intro h
        have h1 : ∀ x ∈ (pre ++ l) :: ms, '\n' ∉ x := by
          intro x hx
          rcases List.mem_cons.1 hx with rfl | hx
          · simp only [List.mem_append, not_or]
            exact ⟨hp, hl l (by simp)⟩
          · exact hl x (by simp [hx])
        have := congrArg List.length (text_inj h1 (hlines _ hspec) h)
        simp at this
      · intro h
        exact absurd ⟨hmm, hbad⟩ h.2
    · rw [prefixIndent_full _ _ _ _ _ hl hlat hne]
      have hgood : ¬ (m = [] ∧ (later = [] ∨ later.length = 1 ∧ pre = [])) := by
        rintro ⟨rfl, h | ⟨h, rfl⟩⟩
        · exact hne (by simp [used, h])
        · exact hne (by simp [used, h])
      constructor
      · intro h
        refine ⟨fun h1 => ?_, hgood⟩
        have he := text_inj (hlines _ (used_nl pre later hlat)) (hlines _ hspec) h
        have he' := congrArg List.getLast? he
        simp only [List.map_append, List.map_singleton] at he'
        rw [← List.cons_append, ← List.cons_append, List.getLast?_concat, List.getLast?_concat, Option.some.injEq] at he'
        have he' := List.append_cancel_right he'
        obtain ⟨c, rfl⟩ := List.length_eq_one_iff.1 h1
        cases pre with
        | nil => exact .inl rfl
        | cons p ps =>
          right
          have hc : ' ' :: List.replicate ps.length ' ' = c :: List.replicate ps.length c := he'
          rw [(List.cons.inj hc).1]
      · rintro ⟨h, -⟩
        have : used pre later = repeated pre.length later := by
          unfold used
          split
          · next h1 =>
            obtain ⟨c, rfl⟩ := List.length_eq_one_iff.1 h1
            rcases h h1 with h | h
            · simp [h, repeated]
            · simp only [List.cons.injEq, and_true] at h
              simp [h, repeated]
          · next h1 => exact (repeated_of h1).symm
        rw [this]

example : prefixIndent "a: ".toList "x\ny\n".toList = "a: x\n   y\n   \n".toList := by decide +kernel

/-- A later prefix of one character is not repeated: blanks are used. -/
theorem C156_negation_later : ¬ C156IndentClaim := by
  intro h
  have := (C156_indent_iff ['>', ' '] ['-'] ['a'] [['b']] (by decide) (by decide) (by decide)).1
    (h ['>', ' '] ['-'] [['a'], ['b']] (by decide) (by decide) (by decide) (by decide)) ['b'] rfl
  exact absurd (this.1 rfl) (by decide)

/-- C156: behind a title, different tables are printed differently. -/
theorem C156_printed_read (title a b : List Char) (ht : title ≠ []) (hn : '\n' ∉ title) (h : printed title a = printed title b) : a = b := by
  have key : ∀ t : List Char, prefixIndent title t = text (indented title [' '] (splitNl t)) := by
    intro t
    have hnl := splitNl_no_newline t
    conv_lhs => rw [← joinNl_splitNl t]
    cases hs : splitNl t with
    | nil => exact absurd hs (splitNl_ne_nil t)
    | cons l ls =>
      rw [hs] at hnl
      refine (C156_indent_iff title [' '] l ls hn (by decide) hnl).2 fun m _ => ⟨fun _ => .inr rfl, ?_⟩
      rintro ⟨-, h | ⟨-, h⟩⟩
      · cases h
      · exact ht h
  have hlines : ∀ t : List Char, ∀ x ∈ indented title [' '] (splitNl t), '\n' ∉ x := by
    intro t x hx
    have hnl := splitNl_no_newline t
    cases hs : splitNl t with
    | nil => rw [hs] at hx; simp [indented] at hx
    | cons l ls =>
      rw [hs] at hx hnl
      rcases List.mem_cons.1 hx with rfl | hx
      · simp only [List.mem_append, not_or]
        exact ⟨hn, hnl l (by simp)⟩
      · obtain ⟨y, hy, rfl⟩ := List.mem_map.1 hx
        simp only [List.mem_append, not_or]
        exact ⟨by simp [repeated], hnl y (by simp [hy])⟩
  unfold printed at h
  have h := List.append_cancel_right h
  rw [key a, key b] at h
  have h := text_inj (hlines a) (hlines b) h
  rw [← joinNl_splitNl a, ← joinNl_splitNl b]
  congr 1
  cases hs : splitNl a with
  | nil => exact absurd hs (splitNl_ne_nil a)
  | cons l ls =>
    cases hs' : splitNl b with
    | nil => exact absurd hs' (splitNl_ne_nil b)
    | cons l' ls' =>
      rw [hs, hs'] at h
      simp only [indented, List.cons.injEq] at h
      rw [List.append_cancel_left h.1, List.map_injective_iff.2 (fun x y e => List.append_cancel_left e) h.2]

example : printed ['a'] ['x'] ≠ printed ['a'] ['x', '\n'] := by decide

/-! ### Accesses -/

/-- C156: the table of accesses has a line for each offset, in order, and for each name without offsets, behind the two lines of its head. -/
theorem C156_accesses_lines (as : List (List Char × List (List Char))) (ho : ∀ a ∈ as, ∀ o ∈ a.2, '\n' ∉ o) :
    accessTable as = text (accessHead ++ as.flatMap fun a =>
      indented (rjust 8 a.1 ++ bar) accessLater (if a.2 = [] then [[]] else a.2)) :=
  accessTable_text as ho

/-- C156: the accesses can be read from the table, whatever the lengths of names and offsets. -/
theorem C156_accesses_read (as bs : List (List Char × List (List Char)))
    (ha : ∀ a ∈ as, Name a.1 ∧ ∀ o ∈ a.2, o ≠ [] ∧ '\n' ∉ o) (hb : ∀ b ∈ bs, Name b.1 ∧ ∀ o ∈ b.2, o ≠ [] ∧ '\n' ∉ o)
    (h : accessTable as = accessTable bs) : as = bs := by
  rw [accessTable_text as fun a h o ho => ((ha a h).2 o ho).2, accessTable_text bs fun b h o ho => ((hb b h).2 o ho).2, text_append,
    text_append] at h
  replace h := List.append_cancel_left h
  have hnl : ∀ cs : List (List Char × List (List Char)), (∀ a ∈ cs, Name a.1 ∧ ∀ o ∈ a.2, o ≠ [] ∧ '\n' ∉ o) →
      ∀ l ∈ cs.flatMap nameLines, '\n' ∉ l := by
    intro cs hc l hl
    obtain ⟨c, hcm, hl⟩ := List.mem_flatMap.1 hl
    exact nameLines_nl c (hc c hcm).1.2.2.2 (fun o ho => ((hc c hcm).2 o ho).2) l hl
  replace h := text_inj (hnl as ha) (hnl bs hb) h
  replace h := congrArg (fun l => (l.foldr step ([], [])).2) h
  simp only [read_all as fun a h => (ha a h).1, read_all bs fun b h => (hb b h).1] at h
  clear hnl
  induction as generalizing bs with
  | nil =>
    cases bs with
    | nil => rfl
    | cons b bs => simp at h
  | cons a as ih =>
    cases bs with
    | nil => simp at h
    | cons b bs =>
      simp only [List.map_cons, List.cons.injEq, Prod.mk.injEq] at h
      rw [ih bs (fun x hx => ha x (by simp [hx])) (fun x hx => hb x (by simp [hx])) h.2]
      have h2 := shown_inj (fun hm => ((ha a (by simp)).2 [] hm).1 rfl) (fun hm => ((hb b (by simp)).2 [] hm).1 rfl) h.1.2
      have : a = b := Prod.ext h.1.1 h2
      rw [this]

example : accessTable [(['a'], [['x'], ['y']]), (['b'], [['z']])] ≠ accessTable [(['a'], [['x']]), (['b'], [['y'], ['z']])] := by
  decide +kernel

/-- The claim of C156 about columns: in all lines of a table of accesses the bar is where it is in the head. -/
def C156ColumnsClaim : Prop :=
  ∀ as : List (List Char × List (List Char)), (∀ a ∈ as, Name a.1 ∧ ∀ o ∈ a.2, '\n' ∉ o) →
    ∃ rows, accessTable as = text (accessHead ++ rows) ∧ (∀ l ∈ rows, '\n' ∉ l) ∧ BarAt 9 (accessHead.headD []) ∧ ∀ l ∈ rows, BarAt 9 l

theorem C156_head : BarAt 9 (accessHead.headD []) :=
  ⟨"    name ".toList, "  offsets   ...".toList, by decide +kernel, by decide +kernel, by decide +kernel⟩

/-- C156: the bars of the lines are below that of the head exactly if no name has more than eight characters. -/
theorem C156_columns_iff (as : List (List Char × List (List Char))) (ha : ∀ a ∈ as, Name a.1 ∧ ∀ o ∈ a.2, '\n' ∉ o) :
    (∃ rows, accessTable as = text (accessHead ++ rows) ∧ (∀ l ∈ rows, '\n' ∉ l) ∧ BarAt 9 (accessHead.headD []) ∧ ∀ l ∈ rows, BarAt 9 l) ↔
      ∀ a ∈ as, a.1.length ≤ 8 := by
  have ht := accessTable_text as fun a h => (ha a h).2
  have hnl : ∀ l ∈ as.flatMap nameLines, '\n' ∉ l := by
    intro l hl
    obtain ⟨c, hcm, hl⟩ := List.mem_flatMap.1 hl
    exact nameLines_nl c (ha c hcm).1.2.2.2 (ha c hcm).2 l hl
  have hshown : ∀ os : List (List Char), ∃ o rest, shown os = o :: rest := by
    intro os
    unfold shown
    split
    · exact ⟨_, _, rfl⟩
    · next h => exact List.exists_cons_of_ne_nil h
  constructor
  · rintro ⟨rows, h1, h2, -, h3⟩ a hm
    rw [ht, text_append, text_append] at h1
    have h1 := text_inj hnl h2 (List.append_cancel_left h1)
    obtain ⟨o, rest, ho⟩ := hshown a.2
    have : rjust 8 a.1 ++ bar ++ o ∈ rows := by
      rw [← h1]
      refine List.mem_flatMap.2 ⟨a, hm, ?_⟩
      unfold nameLines
      rw [ho, indented_cons]
      simp
    exact (bar_iff a.1 o (ha a hm).1.2.2.1).1 (h3 _ this)
  · intro h
    refine ⟨_, ht, hnl, C156_head, ?_⟩
    intro l hl
    obtain ⟨a, hm, hl⟩ := List.mem_flatMap.1 hl
    obtain ⟨o, rest, ho⟩ := hshown a.2
    unfold nameLines at hl
    rw [ho, indented_cons, accessLater_spec] at hl
    rcases List.mem_cons.1 hl with rfl | hl
    · exact (bar_iff a.1 o (ha a hm).1.2.2.1).2 (h a hm)
    · obtain ⟨x, _, rfl⟩ := List.mem_map.1 hl
      exact ⟨List.replicate 9 ' ', ' ' :: x, by simp [accessLater], by decide, by decide⟩

example : ∀ a ∈ [(("a".toList, ["(0,)".toList, "(1,)".toList]) : List Char × List (List Char)), ("b".toList, [])], Name a.1 ∧ ∀ o ∈ a.2, '\n' ∉ o := by
  unfold Name
  decide +kernel

/-- With a name of nine characters its bar is not below that of the head. -/
theorem C156_negation_columns : ¬ C156ColumnsClaim := by
  intro h
  have ha : ∀ a ∈ [((List.replicate 9 'x', [['0']]) : List Char × List (List Char))], Name a.1 ∧ ∀ o ∈ a.2, '\n' ∉ o := by
    unfold Name
    decide
  exact absurd ((C156_columns_iff _ ha).1 (h _ ha) _ List.mem_cons_self) (by decide)

/-! ### Loops, operations, variables and constants -/

/-- The columns of the table of loops. -/
def loopColumns (l : List Char × List Char × List Char × List Char) (line : List Char) : Prop :=
  EndsAt line 8 l.1 ∧ EndsAt line 21 l.2.1 ∧ EndsAt line 32 l.2.2.1 ∧ EndsAt line 43 l.2.2.2

/-- C156, partial: the table of loops has one line for each loop, in order, with index and bounds below their headings. Missing: indices of more than
eight and bounds of more than ten characters, behind which columns move as in `C156_negation_columns`. -/
theorem C156_loops_partial (loops : List (List Char × List Char × List Char × List Char))
    (h : ∀ l ∈ loops, l.1.length ≤ 8 ∧ l.2.1.length ≤ 10 ∧ l.2.2.1.length ≤ 10 ∧ l.2.2.2.length ≤ 10) :
    ∃ rows, loopTable loops = text (loopHead ++ rows) ∧ List.Forall₂ loopColumns loops rows ∧
      loopColumns ("idx".toList, "min".toList, "max".toList, "step".toList) (loopHead.headD []) := by
  refine ⟨loops.map fun l => rjust 8 l.1 ++ bar ++ rjust 10 l.2.1 ++ [' '] ++ rjust 10 l.2.2.1 ++ [' '] ++ rjust 10 l.2.2.2, ?_, ?_, ?_⟩
  · rw [text_append, ← flatMap_text]
    rfl
  · rw [List.forall₂_map_right_iff, List.forall₂_same]
    intro l hl
    obtain ⟨h1, h2, h3, h4⟩ := h l hl
    refine ⟨⟨List.replicate (8 - l.1.length) ' ', bar ++ rjust 10 l.2.1 ++ [' '] ++ rjust 10 l.2.2.1 ++ [' '] ++ rjust 10 l.2.2.2, ?_, ?_⟩,
      ⟨rjust 8 l.1 ++ bar ++ List.replicate (10 - l.2.1.length) ' ', [' '] ++ rjust 10 l.2.2.1 ++ [' '] ++ rjust 10 l.2.2.2, ?_, ?_⟩,
      ⟨rjust 8 l.1 ++ bar ++ rjust 10 l.2.1 ++ [' '] ++ List.replicate (10 - l.2.2.1.length) ' ', [' '] ++ rjust 10 l.2.2.2, ?_, ?_⟩,
      ⟨rjust 8 l.1 ++ bar ++ rjust 10 l.2.1 ++ [' '] ++ rjust 10 l.2.2.1 ++ [' '] ++ List.replicate (10 - l.2.2.2.length) ' ', [], ?_, ?_⟩⟩
    all_goals first
      | (simp only [rjust, List.append_assoc, List.append_nil]; done)
      | (simp only [List.length_append, rjust_length, List.length_replicate, bar, List.length_cons, List.length_nil]; omega)
  · refine ⟨⟨"     ".toList, " |        min        max       step".toList, ?_, ?_⟩,
      ⟨"     idx |        ".toList, "        max       step".toList, ?_, ?_⟩,
      ⟨"     idx |        min        ".toList, "       step".toList, ?_, ?_⟩,
      ⟨"     idx |        min        max       ".toList, [], ?_, ?_⟩⟩ <;> decide +kernel

example : ∀ l ∈ [(("j".toList, "1".toList, "M - 1".toList, "1".toList) : List Char × List Char × List Char × List Char),
    ("i".toList, "1".toList, "N - 1".toList, "1".toList)],
    l.1.length ≤ 8 ∧ l.2.1.length ≤ 10 ∧ l.2.2.1.length ≤ 10 ∧ l.2.2.2.length ≤ 10 := by decide +kernel

/-- C156, partial: the table of operations has one line for each operation with its count, and their sum below the counts. Missing: counts of more than
four digits and operations of more than three characters. -/
theorem C156_operations_partial (flops : List (List Char × Nat)) (h : ∀ f ∈ flops, f.1.length ≤ 3 ∧ (showNat f.2).length ≤ 4)
    (hs : (showNat (flops.map (·.2)).sum).length ≤ 4) :
    ∃ rows line, flopTable flops ++ ['\n'] = text (flopHead ++ rows ++ ["     =======".toList, line]) ∧
      List.Forall₂ (fun f l => EndsAt l 3 f.1 ∧ EndsAt l 10 (showNat f.2)) flops rows ∧ EndsAt line 10 (showNat (flops.map (·.2)).sum) := by
  refine ⟨flops.map fun f => rjust 3 f.1 ++ bar ++ rjust 4 (showNat f.2), "      ".toList ++ rjust 4 (showNat (flops.map (·.2)).sum), ?_, ?_, ?_⟩
  · rw [text_append, text_append, ← flatMap_text]
    unfold flopTable
    have e : "     =======\n".toList = "     =======".toList ++ ['\n'] := by decide +kernel
    rw [e]
    simp only [text, List.flatMap_cons, List.flatMap_nil, List.append_assoc, List.append_nil]
  · rw [List.forall₂_map_right_iff, List.forall₂_same]
    intro f hf
    obtain ⟨h1, h2⟩ := h f hf
    refine ⟨⟨List.replicate (3 - f.1.length) ' ', bar ++ rjust 4 (showNat f.2), ?_, ?_⟩,
      ⟨rjust 3 f.1 ++ bar ++ List.replicate (4 - (showNat f.2).length) ' ', [], ?_, ?_⟩⟩
    all_goals first
      | (simp only [rjust, List.append_assoc, List.append_nil]; done)
      | (simp only [List.length_append, rjust_length, List.length_replicate, bar, List.length_cons, List.length_nil]; omega)
  · refine ⟨"      ".toList ++ List.replicate (4 - (showNat (flops.map (·.2)).sum).length) ' ', [], by simp [rjust], ?_⟩
    have e : "      ".toList.length = 6 := by decide +kernel
    simp only [List.length_append, List.length_replicate, e]
    omega

example : ∀ f ∈ [((['+'], 3) : List Char × Nat), (['*'], 12)], f.1.length ≤ 3 ∧ (showNat f.2).length ≤ 4 := by decide +kernel

/-- C156, partial: the table of variables has one line for each variable, in order: the name ends at column 8, the types at column 26 and the size begins
behind column 27. Missing: names of more than eight characters and types of more than fifteen. -/
theorem C156_variables_partial (vs : List (List Char × List Char × List Char)) (h : ∀ v ∈ vs, v.1.length ≤ 8 ∧ v.2.1.length ≤ 15) :
    ∃ rows, varTable vs = text (varHead ++ rows) ∧
      List.Forall₂ (fun v l => EndsAt l 8 v.1 ∧ EndsAt l 26 v.2.1 ∧ BeginsAt l 27 v.2.2) vs rows := by
  refine ⟨vs.map fun v => rjust 8 v.1 ++ bar ++ rjust 15 v.2.1 ++ [' '] ++ ljust 10 v.2.2, ?_, ?_⟩
  · rw [text_append, ← flatMap_text]
    rfl
  · rw [List.forall₂_map_right_iff, List.forall₂_same]
    intro v hv
    obtain ⟨h1, h2⟩ := h v hv
    refine ⟨⟨List.replicate (8 - v.1.length) ' ', bar ++ rjust 15 v.2.1 ++ [' '] ++ ljust 10 v.2.2, ?_, ?_⟩,
      ⟨rjust 8 v.1 ++ bar ++ List.replicate (15 - v.2.1.length) ' ', [' '] ++ ljust 10 v.2.2, ?_, ?_⟩,
      ⟨rjust 8 v.1 ++ bar ++ rjust 15 v.2.1 ++ [' '], List.replicate (10 - v.2.2.length) ' ', ?_, ?_⟩⟩
    all_goals first
      | (simp only [rjust, ljust, List.append_assoc]; done)
      | (simp only [List.length_append, rjust_length, List.length_replicate, bar, List.length_cons, List.length_nil]; omega)

example : ∀ v ∈ [(("a".toList, "double".toList, "(M, N)".toList) : List Char × List Char × List Char)], v.1.length ≤ 8 ∧ v.2.1.length ≤ 15 := by
  decide +kernel

/-- C156, partial: the table of constants has one line for each constant, in order, with its value behind the bar. Missing: names of more than eight
characters. -/
theorem C156_constants_partial (cs : List (List Char × List Char)) (h : ∀ c ∈ cs, c.1.length ≤ 8) :
    ∃ rows, constTable cs = text (constHead ++ rows) ∧
      List.Forall₂ (fun c l => EndsAt l 8 c.1 ∧ BeginsAt l 11 c.2) cs rows := by
  refine ⟨cs.map fun c => rjust 8 c.1 ++ bar ++ ljust 10 c.2, ?_, ?_⟩
  · rw [text_append, ← flatMap_text]
    rfl
  · rw [List.forall₂_map_right_iff, List.forall₂_same]
    intro c hc
    have h1 := h c hc
    refine ⟨⟨List.replicate (8 - c.1.length) ' ', bar ++ ljust 10 c.2, ?_, ?_⟩,
      ⟨rjust 8 c.1 ++ bar, List.replicate (10 - c.2.length) ' ', ?_, ?_⟩⟩
    all_goals first
      | (simp only [rjust, ljust, List.append_assoc]; done)
      | (simp only [List.length_append, rjust_length, List.length_replicate, bar, List.length_cons, List.length_nil]; omega)

example : ∀ c ∈ [(("N".toList, "1000".toList) : List Char × List Char)], c.1.length ≤ 8 := by decide +kernel

end Verif.Indent
