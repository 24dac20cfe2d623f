import Verif.Model.KernelText
import Verif.Lemmas.Strip
import Verif.Lemmas.Text

/-!
Lemmas on the text of a kernel.
-/

namespace Verif.KernelText

open Verif.Text Verif.Topology Verif.Spec Verif.Clean

theorem find_ge (p s : List Char) : -1 ≤ find p s := by
  induction s with
  | nil =>
    unfold find
    split <;> omega
  | cons c s ih =>
    unfold find
    split
    · omega
    · split <;> omega

theorem cut_nil : cutLine [] = [] := rfl

theorem cut_comment (r : List Char) : cutLine ('/' :: '/' :: r) = [] := by
  simp [cutLine, find, startsWith]

theorem cut_keep (c : Char) (r : List Char) (h : c = '/' → r.head? ≠ some '/') : cutLine (c :: r) = c :: cutLine r := by
  have hp : startsWith "//".toList (c :: r) = false := by
    rw [Bool.eq_false_iff]
    intro hs
    have hs : ['/', '/'] <+: c :: r := by
      simpa [startsWith, List.isPrefixOf_iff_prefix] using hs
    obtain ⟨t, ht⟩ := hs
    simp only [List.cons_append, List.nil_append, List.cons.injEq] at ht
    exact h ht.1.symm (by rw [← ht.2]; rfl)
  have hg := find_ge "//".toList r
  have hf : find "//".toList (c :: r) = match find "//".toList r with
    | -1 => -1
    | i => i + 1 := by
    rw [find, hp]
    rfl
  unfold cutLine
  simp only [hf]
  generalize find "//".toList r = i at hg
  split
  · simp
  · rename_i hi
    have : -1 < i := lt_of_le_of_ne hg fun h => hi h.symm
    rw [if_pos (show i + 1 > -1 by omega), if_pos (show i > -1 by omega)]
    have : (i + 1).toNat = i.toNat + 1 := by omega
    simp [this]

theorem strip_line_only (m : List Char) (hm : '\n' ∉ m) : stripC .line m = [] := by
  induction m with
  | nil => simp [stripC]
  | cons c m ih =>
    have hc : c ≠ '\n' := fun e => hm (by simp [e])
    rw [stripC]
    · exact ih fun e => hm (by simp [e])
    · rintro rfl
      exact hc rfl

/-- No part of the text is in a block comment. -/
def NoBlock (s : List Char) : Prop := ∀ pre suf, s = pre ++ suf → endMode .code pre ≠ .block

theorem NoBlock.prefix {a b : List Char} (h : NoBlock (a ++ b)) : NoBlock a := fun pre suf hs => h pre (suf ++ b) (by rw [hs, List.append_assoc])

theorem NoBlock.tail {c : Char} {r : List Char} (h : NoBlock (c :: r)) (h1 : c = '/' → r.head? ≠ some '/') (h2 : c = '/' → r.head? ≠ some '*') : NoBlock r := by
  intro pre suf hs
  have h3 := h (c :: pre) suf (by rw [hs]; rfl)
  have hh : ∀ d, pre.head? = some d → r.head? = some d := by
    intro d hd
    rw [hs, List.head?_append, hd]
    rfl
  rwa [(strip_keep c pre (fun hc hd => h1 hc (hh _ hd)) (fun hc hd => h2 hc (hh _ hd))).2] at h3

/-- A line. -/
theorem line_spec (l : List Char) (hn : '\n' ∉ l) (hb : NoBlock l) :
    stripC .code l = cutLine l ∧ ∀ v, stripC .code (l ++ '\n' :: v) = cutLine l ++ '\n' :: stripC .code v ∧ endMode .code (l ++ '\n' :: v) = endMode .code v := by
  induction l with
  | nil =>
    refine ⟨by simp [stripC, cut_nil], fun v => ?_⟩
    have := strip_keep '\n' v (by simp) (by simp)
    exact ⟨by simpa [cut_nil] using this.1, by simpa using this.2⟩
  | cons c l ih =>
    by_cases h1 : c = '/' ∧ l.head? = some '/'
    · obtain ⟨rfl, h1⟩ := h1
      obtain ⟨r, rfl⟩ : ∃ r, l = '/' :: r := by
        cases l with
        | nil => simp at h1
        | cons d r =>
          simp only [List.head?_cons, Option.some.injEq] at h1
          exact ⟨r, by rw [h1]⟩
      have hr : '\n' ∉ r := fun h => hn (by simp [h])
      have hline := strip_line_end r
      rw [cut_comment]
      refine ⟨?_, fun v => ?_⟩
      · rw [(strip_line r).1]
        exact (strip_line_only r hr)
      · have h2 := strip_line (r ++ '\n' :: v)
        have h3 := hline v hr
        simp only [List.cons_append, List.nil_append]
        rw [h2.1, h2.2, h3.1, h3.2]
        exact ⟨rfl, rfl⟩
    · by_cases h2 : c = '/' ∧ l.head? = some '*'
      · exfalso
        obtain ⟨rfl, h2⟩ := h2
        cases l with
        | nil => simp at h2
        | cons d r =>
          simp only [List.head?_cons, Option.some.injEq] at h2
          subst h2
          exact hb ['/', '*'] r rfl (by decide)
      · have h1' : c = '/' → l.head? ≠ some '/' := fun hc hd => h1 ⟨hc, hd⟩
        have h2' : c = '/' → l.head? ≠ some '*' := fun hc hd => h2 ⟨hc, hd⟩
        obtain ⟨ih1, ih2⟩ := ih (fun h => hn (by simp [h])) (hb.tail h1' h2')
        have hcn : c ≠ '\n' := fun h => hn (by simp [h])
        rw [cut_keep c l h1']
        refine ⟨?_, fun v => ?_⟩
        · rw [(strip_keep c l h1' h2').1, ih1]
        · have hh : ∀ d, d ≠ '\n' → l.head? ≠ some d → (l ++ '\n' :: v).head? ≠ some d := by
            intro d hd hl
            cases l with
            | nil => simpa using fun h => hd h.symm
            | cons e l => simpa using hl
          have h3 := strip_keep c (l ++ '\n' :: v) (fun hc => hh _ (by decide) (h1' hc)) (fun hc => hh _ (by decide) (h2' hc))
          simp only [List.cons_append]
          rw [h3.1, h3.2, (ih2 v).1, (ih2 v).2]
          exact ⟨rfl, rfl⟩

/-- A text of several lines. -/
theorem lines_spec (ls : List (List Char)) (hne : ls ≠ []) (hn : ∀ l ∈ ls, '\n' ∉ l) (hb : NoBlock (joinNl ls)) :
    stripC .code (joinNl ls) = joinNl (ls.map cutLine) := by
  induction ls with
  | nil => exact absurd rfl hne
  | cons l ls ih =>
    cases ls with
    | nil => exact (line_spec l (hn l (by simp)) hb).1
    | cons m ls =>
      simp only [joinNl, List.map_cons] at hb ih ⊢
      obtain ⟨-, h2⟩ := line_spec l (hn l (by simp)) hb.prefix
      rw [(h2 _).1]
      have hb' : NoBlock (joinNl (m :: ls)) := by
        intro pre suf hs
        have := hb (l ++ '\n' :: pre) suf (by rw [hs]; simp)
        rwa [(h2 pre).2] at this
      rw [ih (by simp) (fun x hx => hn x (by simp [hx])) hb']

theorem joinNl_append (a b : List (List Char)) (ha : a ≠ []) (hb : b ≠ []) : joinNl (a ++ b) = joinNl a ++ '\n' :: joinNl b := by
  induction a with
  | nil => exact absurd rfl ha
  | cons l a ih =>
    cases a with
    | nil =>
      obtain ⟨m, b', rfl⟩ := List.exists_cons_of_ne_nil hb
      rfl
    | cons m a =>
      have := ih (by simp)
      simp only [List.cons_append, joinNl] at this ⊢
      rw [this, List.append_assoc, List.cons_append]

theorem strip_append (a b : List Char) : stripComments (a ++ '\n' :: b) = stripComments a ++ '\n' :: stripComments b := by
  unfold stripComments
  rw [splitNl_append, List.map_append, joinNl_append _ _ (by simp [splitNl_ne_nil]) (by simp [splitNl_ne_nil])]

/-- What is parsed for a code. -/
theorem parsed_eq (code : List Char) :
    parsed code = "#line 0 \nvoid test() {\n#line 1 \n".toList ++ stripComments code ++ "\n#line 999 \n}".toList := by
  have key : ∀ A a b c B d e : List Char, A = a ++ '\n' :: (b ++ '\n' :: (c ++ ['\n'])) → B = '\n' :: (d ++ '\n' :: e) → stripComments a = a →
      stripComments b = b → stripComments c = c → stripComments d = d → stripComments e = e → stripComments (A ++ code ++ B) = A ++ stripComments code ++ B := by
    rintro A a b c B d e rfl rfl ha hb hc hd he
    have h : a ++ '\n' :: (b ++ '\n' :: (c ++ ['\n'])) ++ code ++ '\n' :: (d ++ '\n' :: e) =
        a ++ '\n' :: (b ++ '\n' :: (c ++ '\n' :: (code ++ '\n' :: (d ++ '\n' :: e)))) := by simp
    rw [h, strip_append, strip_append, strip_append, strip_append, strip_append, ha, hb, hc, hd, he]
    simp
  exact key _ "#line 0 ".toList "void test() {".toList "#line 1 ".toList _ "#line 999 ".toList "}".toList (by decide +kernel) (by decide +kernel) (by decide +kernel)
    (by decide +kernel) (by decide +kernel) (by decide +kernel) (by decide +kernel)

/-- Where a comment would begin. -/
def Opens (s : List Char) : Prop := ∃ pre suf, s = pre ++ '/' :: '/' :: suf ∨ s = pre ++ '/' :: '*' :: suf

theorem opens_cons (c : Char) (s : List Char) (h : Opens (c :: s)) : (c = '/' ∧ (s.head? = some '/' ∨ s.head? = some '*')) ∨ Opens s := by
  obtain ⟨pre, suf, h⟩ := h
  cases pre with
  | nil =>
    left
    rcases h with h | h <;> simp only [List.nil_append, List.cons.injEq] at h <;> exact ⟨h.1, by simp [h.2]⟩
  | cons d pre =>
    right
    simp only [List.cons_append, List.cons.injEq] at h
    exact ⟨pre, suf, h.imp (·.2) (·.2)⟩

/-- A text in which no comment begins stays. -/
theorem strip_free (s : List Char) (h : ¬ Opens s) : stripC .code s = s ∧ NoBlock s := by
  induction s with
  | nil =>
    refine ⟨by simp [stripC], fun pre suf hs => ?_⟩
    obtain ⟨rfl, -⟩ := List.append_eq_nil_iff.1 hs.symm
    simp [endMode]
  | cons c s ih =>
    have h1 : c = '/' → s.head? ≠ some '/' := by
      rintro rfl hs
      obtain ⟨r, rfl⟩ : ∃ r, s = '/' :: r := by
        cases s with
        | nil => simp at hs
        | cons d r =>
          simp only [List.head?_cons, Option.some.injEq] at hs
          exact ⟨r, by rw [hs]⟩
      exact h ⟨[], r, Or.inl rfl⟩
    have h2 : c = '/' → s.head? ≠ some '*' := by
      rintro rfl hs
      obtain ⟨r, rfl⟩ : ∃ r, s = '*' :: r := by
        cases s with
        | nil => simp at hs
        | cons d r =>
          simp only [List.head?_cons, Option.some.injEq] at hs
          exact ⟨r, by rw [hs]⟩
      exact h ⟨[], r, Or.inr rfl⟩
    have h3 : ¬ Opens s := by
      rintro ⟨pre, suf, hs⟩
      exact h ⟨c :: pre, suf, hs.imp (by rintro rfl; rfl) (by rintro rfl; rfl)⟩
    obtain ⟨ih1, ih2⟩ := ih h3
    refine ⟨by rw [(strip_keep c s h1 h2).1, ih1], fun pre suf hs => ?_⟩
    cases pre with
    | nil => simp [endMode]
    | cons d pre =>
      simp only [List.cons_append, List.cons.injEq] at hs
      obtain ⟨rfl, hs⟩ := hs
      have hh : ∀ e, pre.head? = some e → s.head? = some e := by
        intro e he
        rw [hs, List.head?_append, he]
        rfl
      rw [(strip_keep c pre (fun hc hd => h1 hc (hh _ hd)) (fun hc hd => h2 hc (hh _ hd))).2]
      exact ih2 pre suf hs

/-- In a text without its comments no comment begins. -/
theorem strip_closed (n : Nat) : ∀ s : List Char, s.length ≤ n → ∀ m, ¬ Opens (stripC m s) ∧
    (m = .code → s.head? ≠ some '/' → (stripC m s).head? = s.head?) := by
  induction n with
  | zero =>
    intro s hs m
    have : s = [] := List.length_eq_zero_iff.1 (by omega)
    subst this
    constructor
    · rintro ⟨pre, suf, h | h⟩ <;> cases m <;> simp [stripC] at h
    · rintro rfl -
      simp [stripC]
  | succ n ih =>
    intro s hs m
    cases s with
    | nil =>
      constructor
      · rintro ⟨pre, suf, h | h⟩ <;> cases m <;> simp [stripC] at h
      · rintro rfl -
        simp [stripC]
    | cons c r =>
      have hr : r.length ≤ n := by simpa using hs
      have nl : ∀ t, ¬ Opens t → ¬ Opens ('\n' :: t) := by
        intro t ht h
        rcases opens_cons _ _ h with ⟨h1, -⟩ | h1
        · exact absurd h1 (by decide)
        · exact ht h1
      cases m with
      | code =>
        by_cases h1 : c = '/' ∧ ∃ r', r = '/' :: r'
        · obtain ⟨rfl, r', rfl⟩ := h1
          rw [(strip_line r').1]
          exact ⟨(ih r' (by simp at hr; omega) .line).1, fun _ h => absurd rfl h⟩
        · by_cases h2 : c = '/' ∧ ∃ r', r = '*' :: r'
          · obtain ⟨rfl, r', rfl⟩ := h2
            rw [(strip_open r').1]
            exact ⟨(ih r' (by simp at hr; omega) .block).1, fun _ h => absurd rfl h⟩
          · have h1' : c = '/' → r.head? ≠ some '/' := by
              intro hc hd
              cases r with
              | nil => simp at hd
              | cons d r =>
                simp only [List.head?_cons, Option.some.injEq] at hd
                exact h1 ⟨hc, r, by rw [hd]⟩
            have h2' : c = '/' → r.head? ≠ some '*' := by
              intro hc hd
              cases r with
              | nil => simp at hd
              | cons d r =>
                simp only [List.head?_cons, Option.some.injEq] at hd
                exact h2 ⟨hc, r, by rw [hd]⟩
            rw [(strip_keep c r h1' h2').1]
            obtain ⟨ih1, ih2⟩ := ih r hr .code
            refine ⟨fun h => ?_, fun _ _ => rfl⟩
            rcases opens_cons _ _ h with ⟨h3, h4⟩ | h3
            · rw [ih2 rfl (h1' h3)] at h4
              exact h4.elim (h1' h3) (h2' h3)
            · exact ih1 h3
      | line =>
        refine ⟨?_, fun h => by simp at h⟩
        by_cases hc : c = '\n'
        · subst hc
          rw [stripC]
          exact nl _ (ih r hr .code).1
        · rw [stripC]
          · exact (ih r hr .line).1
          · rintro rfl
            exact hc rfl
      | block =>
        refine ⟨?_, fun h => by simp at h⟩
        by_cases h1 : c = '*' ∧ ∃ r', r = '/' :: r'
        · obtain ⟨rfl, r', rfl⟩ := h1
          rw [(strip_close r').1]
          exact (ih r' (by simp at hr; omega) .code).1
        · have h1' : c = '*' → r.head? ≠ some '/' := by
            intro hc hd
            cases r with
            | nil => simp at hd
            | cons d r =>
              simp only [List.head?_cons, Option.some.injEq] at hd
              exact h1 ⟨hc, r, by rw [hd]⟩
          rw [(strip_block c r h1').1]
          by_cases hc : c = '\n'
          · subst hc
            exact nl _ (ih r hr .block).1
          · simp only [List.count_cons, List.count_nil, beq_iff_eq, hc, if_false, Nat.add_zero, List.replicate_zero, List.nil_append]
            exact (ih r hr .block).1

end Verif.KernelText
