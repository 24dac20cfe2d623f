import Verif.Props.Clean
import Verif.Spec.Directives

/-!
C76: exactly the lines of macros and pragmas are removed.
-/

namespace Verif.Clean

open Verif.Text Verif.Directives

/-! ### White space at the ends of lines -/

/-- The only white space in the line are spaces and tabs. -/
def Blanks (l : List Char) : Prop := ∀ c ∈ l, c ∉ ['\n', '\r', '\x0b', '\x0c', '\x1c', '\x1d', '\x1e', '\x1f']

/-- No white space follows a backslash up to the end of the line. -/
def NoBlankAfterBackslash (l : List Char) : Prop := ∀ a b, l = a ++ '\\' :: b → b ≠ [] → ∃ c ∈ b, blank c = false

/-- `#pragma` is written without blanks and nothing else begins with it. -/
def PlainPragma (l : List Char) : Prop :=
  ∀ r, l.dropWhile blank = '#' :: r → (name r = ['p', 'r', 'a', 'g', 'm', 'a'] ↔ ['p', 'r', 'a', 'g', 'm', 'a'] <+: r)

/-- Lines that continue a line do not begin with `#`. -/
def PlainContinuation : List (List Char) → Prop
  | a :: b :: ls => (continues a = true → (b.dropWhile blank).head? ≠ some '#') ∧ PlainContinuation (b :: ls)
  | _ => True

theorem isSpace_blank {l : List Char} (h : Blanks l) {c : Char} (hc : c ∈ l) : isSpace c = blank c := by
  have := h c hc
  simp only [List.mem_cons, List.not_mem_nil, or_false, not_or] at this
  simp only [isSpace, blank, this, decide_false, Bool.or_false, Bool.beq_eq_decide_eq]

theorem dropWhile_congr' {α : Type} (p q : α → Bool) (l : List α) (h : ∀ c ∈ l, p c = q c) :
    l.dropWhile p = l.dropWhile q := by
  induction l with
  | nil => rfl
  | cons a l ih =>
    rw [List.dropWhile_cons, List.dropWhile_cons, h a (by simp), ih (fun c hc => h c (by simp [hc]))]

/-- The stripped line is a beginning of the line without its blanks in front; what is missing are blanks. -/
theorem strip_split {l : List Char} (h : Blanks l) :
    ∃ t, l.dropWhile blank = strip l ++ t ∧ (∀ c ∈ t, blank c = true) ∧ (∀ c, (strip l).getLast? = some c → blank c = false) := by
  have h1 : l.dropWhile isSpace = l.dropWhile blank := dropWhile_congr' _ _ _ fun c hc => isSpace_blank h hc
  have h2 : ∀ c ∈ l.dropWhile blank, isSpace c = blank c := fun c hc =>
    isSpace_blank h ((List.dropWhile_suffix _).subset hc)
  unfold strip
  rw [h1]
  generalize l.dropWhile blank = s at h2
  have h3 : s.reverse.dropWhile isSpace = s.reverse.dropWhile blank :=
    dropWhile_congr' _ _ _ fun c hc => h2 c (by simpa using hc)
  rw [h3]
  refine ⟨(s.reverse.takeWhile blank).reverse, ?_, ?_, ?_⟩
  · rw [← List.reverse_append, List.takeWhile_append_dropWhile, List.reverse_reverse]
  · intro c hc
    exact List.all_eq_true.1 (List.all_takeWhile (p := blank) (l := s.reverse)) c (by simpa using hc)
  · intro c hc
    rw [List.getLast?_reverse] at hc
    have := List.head?_dropWhile_not blank s.reverse
    rw [hc] at this
    simpa using this

theorem startsWith_strip {l p : List Char} (h : Blanks l) (hp : p.getLast?.map blank = some false) :
    startsWith p (strip l) = true ↔ p <+: l.dropWhile blank := by
  obtain ⟨t, h1, h2, -⟩ := strip_split h
  rw [startsWith, List.isPrefixOf_iff_prefix, h1]
  constructor
  · intro hx
    exact hx.trans (List.prefix_append _ _)
  · intro hx
    rcases Nat.lt_or_ge (strip l).length p.length with hlt | hge
    · exfalso
      obtain ⟨u, hu⟩ := List.prefix_of_prefix_length_le (List.prefix_append (strip l) t) hx hlt.le
      have hune : u ≠ [] := by
        rintro rfl
        rw [List.append_nil] at hu
        rw [hu] at hlt
        exact lt_irrefl _ hlt
      obtain ⟨v, hv⟩ := hx
      rw [← hu, List.append_assoc, List.append_cancel_left_eq] at hv
      rw [← hu, List.getLast?_append_of_ne_nil _ hune] at hp
      obtain ⟨c, hc⟩ : ∃ c, u.getLast? = some c := by
        cases hl : u.getLast? with
        | none => rw [List.getLast?_eq_none_iff] at hl; exact absurd hl hune
        | some c => exact ⟨c, rfl⟩
      have : blank c = true := h2 c (by rw [← hv]; simp [List.mem_of_getLast? hc])
      rw [hc] at hp
      simp [this] at hp
    · exact List.prefix_of_prefix_length_le hx (List.prefix_append _ _) hge

theorem endsBackslash_strip {l : List Char} (h : Blanks l) (hb : NoBlankAfterBackslash l) :
    endsBackslash (strip l) = continues l := by
  obtain ⟨t, h1, h2, -⟩ := strip_split h
  have h3 : l = l.takeWhile blank ++ (strip l ++ t) := by rw [← h1, List.takeWhile_append_dropWhile]
  unfold endsBackslash continues
  rcases List.eq_nil_or_concat (strip l) with he | ⟨s, x, he⟩
  · rw [he] at h3 ⊢
    have : ∀ c ∈ l, blank c = true := by
      rw [h3]
      intro c hc
      simp only [List.nil_append, List.mem_append] at hc
      rcases hc with hc | hc
      · exact List.all_eq_true.1 (List.all_takeWhile (p := blank) (l := l)) c hc
      · exact h2 c hc
    cases hl : l.getLast? with
    | none => rfl
    | some c =>
      have hc := this c (List.mem_of_getLast? hl)
      have : c ≠ '\\' := by rintro rfl; exact absurd hc (by decide)
      simp [this]
  · rw [he, List.concat_eq_append] at h3 ⊢
    rcases List.eq_nil_or_concat t with ht | ⟨t', y, ht⟩
    · have : l.getLast? = some x := by rw [h3, ht]; simp
      rw [this]; simp
    · have hy : blank y = true := h2 y (by rw [ht]; simp)
      have hl : l.getLast? = some y := by
        rw [h3, ht, List.concat_eq_append, ← List.append_assoc, ← List.append_assoc, List.getLast?_concat]
      have hy' : y ≠ '\\' := by rintro rfl; exact absurd hy (by decide)
      have hx : x ≠ '\\' := by
        rintro rfl
        obtain ⟨c, hc, hc'⟩ := hb (l.takeWhile blank ++ s) t (by
          conv_lhs => rw [h3]
          simp) (by rw [ht]; simp)
        rw [h2 c hc] at hc'
        exact absurd hc' (by simp)
      rw [hl]
      simp [hx, hy']

theorem startKind_macro {l : List Char} (h : Blanks l) (hp : PlainPragma l) :
    startsWith ['#'] (strip l) = decide (startKind l ≠ .code) ∧
      startsWith "#pragma".toList (strip l) = decide (startKind l = .pragma) := by
  have e1 : startsWith ['#'] (strip l) = decide (['#'] <+: l.dropWhile blank) := by
    rw [Bool.eq_iff_iff, startsWith_strip h (by decide), decide_eq_true_iff]
  have e2 : startsWith "#pragma".toList (strip l) = decide ("#pragma".toList <+: l.dropWhile blank) := by
    rw [Bool.eq_iff_iff, startsWith_strip h (by decide), decide_eq_true_iff]
  rw [e1, e2]
  unfold startKind
  have hs : "#pragma".toList = '#' :: ['p', 'r', 'a', 'g', 'm', 'a'] := by decide
  rw [hs]
  split
  · rename_i r hr
    rw [hr]
    have := hp r hr
    by_cases hn : name r = ['p', 'r', 'a', 'g', 'm', 'a']
    · simp [hn, List.cons_prefix_cons, this.1 hn]
    · have hn' := mt this.2 hn
      simp [hn, List.cons_prefix_cons, hn']
  · rename_i hne
    have : ∀ r, ¬ ('#' :: r) <+: l.dropWhile blank := by
      rintro r ⟨v, hv⟩
      exact hne (r ++ v) (by rw [← hv]; rfl)
    simp [this]

theorem startKind_code {l : List Char} (h : (l.dropWhile blank).head? ≠ some '#') : startKind l = .code := by
  unfold startKind
  split
  · rename_i r hr
    rw [hr] at h
    simp at h
  · rfl

theorem cleanLines_kinds (macros pragmas : Bool) (ls : List (List Char)) (c : Option Kind) (a b : Bool)
    (h1 : ∀ l ∈ ls, Blanks l) (h2 : ∀ l ∈ ls, NoBlankAfterBackslash l) (h3 : ∀ l ∈ ls, PlainPragma l)
    (h4 : PlainContinuation ls) (hc : c.isSome → ∀ l, ls.head? = some l → (l.dropWhile blank).head? ≠ some '#')
    (ha : a = (macros && decide (c = some .macro))) (hb : b = (pragmas && decide (c = some .pragma))) :
    cleanLines macros pragmas a b ls = without (removed macros pragmas) (kinds c ls) ls := by
  induction ls generalizing c a b with
  | nil => rfl
  | cons l ls ih =>
    obtain ⟨k1, k2⟩ := startKind_macro (h1 l (by simp)) (h3 l (by simp))
    have k3 := endsBackslash_strip (h1 l (by simp)) (h2 l (by simp))
    have hm : (macros && ((startsWith ['#'] (strip l) && !startsWith "#pragma".toList (strip l)) || a)) =
        (macros && decide (c.getD (startKind l) = .macro)) := by
      rw [k1, k2, ha]
      cases c with
      | none => cases macros <;> cases startKind l <;> simp
      | some k =>
        have := startKind_code (hc rfl l rfl)
        rw [this]
        cases macros <;> cases k <;> simp
    have hp : (pragmas && (startsWith "#pragma".toList (strip l) || b)) =
        (pragmas && decide (c.getD (startKind l) = .pragma)) := by
      rw [k2, hb]
      cases c with
      | none => cases pragmas <;> cases startKind l <;> simp
      | some k =>
        have := startKind_code (hc rfl l rfl)
        rw [this]
        cases pragmas <;> cases k <;> simp
    unfold cleanLines kinds
    simp only [hm, hp, k3]
    rw [without, List.zipWith_cons_cons]
    congr 1
    · cases c.getD (startKind l) <;> cases macros <;> cases pragmas <;> rfl
    · refine ih _ _ _ (fun x hx => h1 x (by simp [hx])) (fun x hx => h2 x (by simp [hx])) (fun x hx => h3 x (by simp [hx]))
        ?_ ?_ ?_ ?_
      · cases ls with
        | nil => trivial
        | cons y ys => exact h4.2
      · intro hs x hx
        cases ls with
        | nil => simp at hx
        | cons y ys =>
          simp only [List.head?_cons, Option.some.injEq] at hx
          subst hx
          refine h4.1 ?_
          by_contra hcon
          simp [hcon] at hs
      · subst ha
        cases c with
        | none => cases macros <;> cases continues l <;> cases startKind l <;> simp
        | some k => cases macros <;> cases continues l <;> cases k <;> simp
      · subst hb
        cases c with
        | none => cases pragmas <;> cases continues l <;> cases startKind l <;> simp
        | some k => cases pragmas <;> cases continues l <;> cases k <;> simp

theorem cleanLines_no_newline (macros pragmas a b : Bool) (ls : List (List Char)) (h : ∀ l ∈ ls, '\n' ∉ l) :
    ∀ l ∈ cleanLines macros pragmas a b ls, '\n' ∉ l := by
  induction ls generalizing a b with
  | nil => simp [cleanLines]
  | cons x xs ih =>
    intro l hl
    unfold cleanLines at hl
    rcases List.mem_cons.mp hl with rfl | hl
    · split
      · simp
      · exact h x (by simp)
    · exact ih _ _ (fun y hy => h y (by simp [hy])) l hl

theorem cleanLines_none (a b : Bool) (ls : List (List Char)) : cleanLines false false a b ls = ls := by
  induction ls generalizing a b with
  | nil => rfl
  | cons x xs ih => simp [cleanLines, ih]

/-! ### C76 -/

/-- C76, partial: exactly the lines of macros and of pragmas are emptied, as requested. Missing are lines with white space
behind a final backslash, other white space than blanks, `#` and `pragma` with blanks between them, and lines beginning with
`#` that continue a line; see the negations. -/
theorem C76_exact_partial (fuel : Nat) (macros pragmas : Bool) (code : List Char)
    (h1 : ∀ l ∈ splitNl code, Blanks l) (h2 : ∀ l ∈ splitNl code, NoBlankAfterBackslash l)
    (h3 : ∀ l ∈ splitNl code, PlainPragma l) (h4 : PlainContinuation (splitNl code)) :
    ∃ out, cleanCode fuel false macros pragmas code = some out ∧
      splitNl out = without (removed macros pragmas) (kinds none (splitNl code)) (splitNl code) := by
  refine ⟨cleanMacros macros pragmas code, rfl, ?_⟩
  have key := cleanLines_kinds macros pragmas (splitNl code) none false false h1 h2 h3 h4 (by simp) (by simp) (by simp)
  have hf := cleanLines_forall macros pragmas false false (splitNl code)
  unfold cleanMacros
  split
  · rw [← key, splitNl_joinNl]
    · intro h
      have := hf.length_eq
      rw [h] at this
      exact splitNl_ne_nil code (List.eq_nil_of_length_eq_zero this.symm)
    · exact cleanLines_no_newline macros pragmas _ _ _ (splitNl_no_newline code)
  · rename_i hno
    simp only [Bool.or_eq_true, not_or, Bool.not_eq_true] at hno
    rw [← key, hno.1, hno.2, cleanLines_none]

theorem noBlank_check (l : List Char) (h : ∀ i < l.length, l[i]? = some '\\' →
    l.drop (i + 1) = [] ∨ (l.drop (i + 1)).any (fun c => !blank c) = true) : NoBlankAfterBackslash l := by
  rintro a b rfl hb
  have := h a.length (by simp) (by simp)
  rw [show a.length + 1 = (a ++ ['\\']).length by simp, show a ++ '\\' :: b = (a ++ ['\\']) ++ b by simp,
    List.drop_left] at this
  rcases this with h | h
  · exact absurd h hb
  · simpa using h

theorem plain_check (l : List Char) (h : name (l.dropWhile blank).tail = ['p', 'r', 'a', 'g', 'm', 'a'] ↔
    ['p', 'r', 'a', 'g', 'm', 'a'] <+: (l.dropWhile blank).tail) : PlainPragma l := by
  intro r hr
  rw [hr] at h
  exact h

/-- A macro of two lines, a pragma and code. -/
def macroFile : List Char := "#define A \\\n  b\n #pragma omp\nx = A;\n".toList

example : (∀ l ∈ splitNl macroFile, Blanks l) ∧ (∀ l ∈ splitNl macroFile, NoBlankAfterBackslash l) ∧
    (∀ l ∈ splitNl macroFile, PlainPragma l) ∧ PlainContinuation (splitNl macroFile) ∧
    kinds none (splitNl macroFile) = [.macro, .macro, .pragma, .code, .code] := by
  refine ⟨?_, ?_, ?_, ?_, by decide +kernel⟩
  · unfold Blanks; decide +kernel
  · exact fun l hl => noBlank_check l ((by decide +kernel : ∀ l ∈ splitNl macroFile, ∀ i < l.length, l[i]? = some '\\' →
      l.drop (i + 1) = [] ∨ (l.drop (i + 1)).any (fun c => !blank c) = true) l hl)
  · exact fun l hl => plain_check l ((by decide +kernel : ∀ l ∈ splitNl macroFile,
      (name (l.dropWhile blank).tail = ['p', 'r', 'a', 'g', 'm', 'a'] ↔
        ['p', 'r', 'a', 'g', 'm', 'a'] <+: (l.dropWhile blank).tail)) l hl)
  · rw [show splitNl macroFile = ["#define A \\".toList, "  b".toList, " #pragma omp".toList, "x = A;".toList, []] by
      decide +kernel]
    simp only [PlainContinuation]
    decide +kernel

/-- C76 is false: white space behind a backslash continues a macro, so that code is removed. -/
theorem C76_negation_space : cleanCode 0 false true false "#define A \\ \nx = 1;".toList = some "\n".toList ∧
    kinds none (splitNl "#define A \\ \nx = 1;".toList) = [.macro, .code] := by decide +kernel

/-- C76 is false: a pragma with a blank behind `#` is removed as macro. -/
theorem C76_negation_pragma : cleanCode 0 false true false "# pragma omp simd".toList = some [] ∧
    kinds none (splitNl "# pragma omp simd".toList) = [.pragma] := by decide +kernel

/-- C76 is false: a line that continues a pragma is removed as macro if it begins with `#`. -/
theorem C76_negation_continued : cleanCode 0 false true false "#pragma a \\\n#b".toList = some "#pragma a \\\n".toList ∧
    kinds none (splitNl "#pragma a \\\n#b".toList) = [.pragma, .pragma] := by decide +kernel

end Verif.Clean
