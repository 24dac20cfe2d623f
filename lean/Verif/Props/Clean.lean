import Verif.Lemmas.Clean

/-!
C40: stripping of comments, macros and pragmas.
-/

namespace Verif.Clean

open Verif.Text

/-- The specification of C40: same number of lines, every line results from the line at the same place by deleting
characters. -/
def LinesKept (orig out : List Char) : Prop := List.Forall₂ List.Sublist (splitNl out) (splitNl orig)

theorem LinesKept.length {a b : List Char} (h : LinesKept a b) : (splitNl b).length = (splitNl a).length :=
  List.Forall₂.length_eq h

theorem Kept.lines {a b : List Char} (h : Kept a b) : LinesKept a b := lines_sublist b a h.1 h.2

/-! ### Macros and pragmas -/

theorem cleanLines_forall (macros pragmas a b : Bool) (ls : List (List Char)) :
    List.Forall₂ (fun new old => new = old ∨ new = []) (cleanLines macros pragmas a b ls) ls := by
  induction ls generalizing a b with
  | nil => exact List.Forall₂.nil
  | cons l ls ih =>
    unfold cleanLines
    refine List.Forall₂.cons ?_ (ih _ _)
    split
    · exact Or.inr rfl
    · exact Or.inl rfl

/-- C40: removing macros and pragmas keeps the number of lines, and each line is unchanged or empty afterwards. -/
theorem C40_macros (fuel : Nat) (macros pragmas : Bool) (code : List Char) :
    ∃ out, cleanCode fuel false macros pragmas code = some out ∧
      List.Forall₂ (fun new old => new = old ∨ new = []) (splitNl out) (splitNl code) := by
  refine ⟨cleanMacros macros pragmas code, rfl, ?_⟩
  unfold cleanMacros
  split
  · rw [splitNl_joinNl]
    · exact cleanLines_forall _ _ _ _ _
    · intro h
      have := (cleanLines_forall macros pragmas false false (splitNl code)).length_eq
      rw [h] at this
      exact splitNl_ne_nil code (List.eq_nil_of_length_eq_zero this.symm)
    · intro l hl
      have hf := cleanLines_forall macros pragmas false false (splitNl code)
      have hno := splitNl_no_newline code
      generalize cleanLines macros pragmas false false (splitNl code) = new at hf hl
      generalize splitNl code = old at hf hno
      induction hf with
      | nil => exact absurd hl (by simp)
      | cons h _ ih =>
        rcases List.mem_cons.mp hl with rfl | hl
        · rcases h with rfl | rfl
          · exact hno _ (by simp)
          · simp
        · exact ih hl (fun x hx => hno x (by simp [hx]))
  · exact List.forall₂_same.mpr fun l _ => Or.inl rfl

theorem macros_linesKept (macros pragmas : Bool) (code : List Char) : LinesKept code (cleanMacros macros pragmas code) := by
  obtain ⟨out, h1, h2⟩ := C40_macros 0 macros pragmas code
  simp only [cleanCode, Bool.false_eq_true, if_false, Option.some.injEq] at h1
  subst h1
  refine h2.imp fun a b h => ?_
  rcases h with rfl | rfl
  · exact List.Sublist.refl _
  · exact List.nil_sublist _

theorem LinesKept.trans {a b c : List Char} (h1 : LinesKept a b) (h2 : LinesKept b c) : LinesKept a c := by
  unfold LinesKept at *
  revert h1 h2
  generalize splitNl a = x
  generalize splitNl b = y
  generalize splitNl c = z
  intro h1 h2
  induction h1 generalizing z with
  | nil => cases h2; exact List.Forall₂.nil
  | cons h t ih =>
    cases h2 with
    | cons h' t' => exact List.Forall₂.cons (h'.trans h) (ih _ t')

/-! ### Texts without `//` -/

theorem loop_no_line (code : List Char) (hfree : Free code '/' '/') :
    ∃ out n, Kept code out ∧ ∀ fuel, n ≤ fuel → loop fuel ⟨code, 0, none⟩ = some out := by
  apply loop_result (fun s => Kept code s.code ∧ 0 ≤ s.idx ∧ (∀ c, s.start = some c → 0 ≤ c ∧ c < s.idx) ∧
    ∀ p : Nat, s.idx ≤ p → ¬ At s.code p '/' '/')
  · rintro s ⟨hk, hi, hst, hno⟩ hcond
    have hs := step_is s
    generalize step s = s' at hs
    cases hs with
    | skip h1 h2 =>
      refine ⟨⟨hk, by simp only; omega, fun c hc => ?_, fun p hp => hno p (by simp only at hp; omega)⟩, Or.inr ⟨rfl, by simp only; omega⟩⟩
      have := hst c hc
      simp only
      omega
    | line p m v hn hb hat hpos hneg hc hm hl => exact absurd hat (hno p (by have := hpos hi; omega))
    | lastLine p hn hb hat hpos hneg hc => exact absurd hat (hno p (by have := hpos hi; omega))
    | opens p hn hat hpos hneg =>
      refine ⟨⟨hk, by simp only; omega, fun c hc => ?_, fun q hq => hno q (by simp only at hq; omega)⟩, Or.inr ⟨rfl, by simp only; omega⟩⟩
      simp only [Option.some.injEq] at hc
      simp only
      omega
    | closes p c hn hat hpos hneg =>
      obtain ⟨hc0, hci⟩ := hst c hn
      have hp := hpos hi
      obtain ⟨c, rfl⟩ := Int.eq_ofNat_of_zero_le hc0
      obtain ⟨f1, f2, f3, f4⟩ := closes_form s.code c p (by omega) hat
      rw [← hp, f2, f3, f4]
      have hlen := congrArg List.length f1
      have hlt := hat.lt
      simp only [List.length_append, List.length_cons, List.length_take, List.length_drop] at hlen
      have hcount := List.count_le_length (l := (s.code.take p).drop c) (a := '\n')
      simp only [List.length_take, List.length_drop] at hcount
      have hkept : Kept s.code (s.code.take c ++ List.replicate (((s.code.take p).drop c).count '\n') '\n' ++
          s.code.drop (p + 2)) := by
        conv => enter [1]; rw [f1]
        exact kept_block _ _ _ _ _ (by decide) (by decide)
      refine ⟨⟨hk.trans hkept, by simp only; omega, by simp, ?_⟩, Or.inl ?_⟩
      · intro q hq hatq
        simp only at hq
        generalize hk' : ((s.code.take p).drop c).count '\n' = k at *
        have hl1 : (s.code.take c).length = c := by rw [List.length_take]; omega
        by_cases hqk : q < c + k
        · obtain ⟨j, rfl⟩ : ∃ j, q = c + j := ⟨q - c, by omega⟩
          have := hatq.1
          rw [List.append_assoc, getElem?_append_len _ _ c j hl1, List.getElem?_append_left (by simp; omega),
            List.getElem?_replicate, if_pos (by omega)] at this
          simp at this
        · obtain ⟨j, rfl⟩ : ∃ j, q = c + k + j := ⟨q - c - k, by omega⟩
          have hl2 : (s.code.take c ++ List.replicate k '\n').length = c + k := by simp; omega
          have h1 := hatq.1
          have h2 := hatq.2
          rw [getElem?_append_len _ _ (c + k) j hl2, List.getElem?_drop] at h1
          rw [Nat.add_assoc, getElem?_append_len _ _ (c + k) (j + 1) hl2, List.getElem?_drop] at h2
          exact hno (p + 2 + j) (by omega) ⟨h1, h2⟩
      · simp only [List.length_append, List.length_take, List.length_replicate, List.length_drop]
        omega
  · rintro s ⟨hk, _⟩ _
    exact hk
  · exact ⟨Kept.refl code, by simp, by simp, fun p _ => hfree p⟩

/-- C40, partial: if the text (after removal of macros and pragmas) contains no `//`, stripping terminates and keeps
lines. -/
theorem C40_block_comments_partial (macros pragmas : Bool) (code : List Char)
    (hfree : Free (cleanMacros macros pragmas code) '/' '/') :
    ∃ out n, LinesKept code out ∧ ∀ fuel, n ≤ fuel → cleanCode fuel true macros pragmas code = some out := by
  obtain ⟨out, n, h1, h2⟩ := loop_no_line _ hfree
  exact ⟨out, n, (macros_linesKept macros pragmas code).trans h1.lines, fun fuel hf => by simpa [cleanCode] using h2 fuel hf⟩

/-! ### Texts without block comments -/

/-- A line comment was removed: what remains known. -/
theorem line_removed (code : List Char) (p : Nat) (m v : List Char) (hp : p ≤ code.length)
    (hc : code = code.take p ++ m ++ '\n' :: v) (hm : '\n' ∉ m) (hl : 2 ≤ m.length) :
    Kept code (code.take p ++ '\n' :: v) ∧ (code.take p ++ '\n' :: v).length < code.length ∧
    (∀ q a b, a ≠ '\n' → b ≠ '\n' → At (code.take p ++ '\n' :: v) q a b → ∃ q', (q < p → q' = q) ∧ At code q' a b) := by
  have hlen := congrArg List.length hc
  simp only [List.length_append, List.length_cons, List.length_take] at hlen
  refine ⟨?_, ?_, ?_⟩
  · conv => enter [1]; rw [hc]
    exact kept_line _ _ _ hm
  · simp only [List.length_append, List.length_cons, List.length_take]
    omega
  · intro q a b ha hb hat
    have hl1 : (code.take p).length = p := by rw [List.length_take]; omega
    have hl2 : (code.take p ++ m).length = p + m.length := by rw [List.length_append, hl1]
    by_cases h1 : q + 1 < p
    · refine ⟨q, fun _ => rfl, ?_⟩
      obtain ⟨e1, e2⟩ := hat
      rw [List.getElem?_append_left (by omega), List.getElem?_take, if_pos (by omega)] at e1
      rw [List.getElem?_append_left (by omega), List.getElem?_take, if_pos (by omega)] at e2
      exact ⟨e1, e2⟩
    · by_cases h2 : q + 1 = p
      · have e2 := hat.2
        have := getElem?_append_len (code.take p) ('\n' :: v) p 0 hl1
        rw [Nat.add_zero] at this
        rw [h2, this] at e2
        simp only [List.getElem?_cons_zero, Option.some.injEq] at e2
        exact absurd e2.symm hb
      · obtain ⟨j, rfl⟩ : ∃ j, q = p + j := ⟨q - p, by omega⟩
        refine ⟨p + m.length + j, fun h => by omega, ?_⟩
        obtain ⟨e1, e2⟩ := hat
        rw [getElem?_append_len _ _ p j hl1] at e1
        rw [Nat.add_assoc, getElem?_append_len _ _ p (j + 1) hl1] at e2
        constructor
        · rw [hc, getElem?_append_len _ _ (p + m.length) j hl2]
          exact e1
        · rw [hc, Nat.add_assoc, getElem?_append_len _ _ (p + m.length) (j + 1) hl2]
          exact e2

theorem ends_newline (code body : List Char) (p : Nat) (hend : code = body ++ ['\n']) (hp : p < code.length) :
    '\n' ∈ code.drop p := by
  subst hend
  rw [List.drop_append_of_le_length (by simp at hp; omega)]
  simp

theorem loop_no_block (code body : List Char) (hend : code = body ++ ['\n']) (hfree : Free code '/' '*') :
    ∃ out n, Kept code out ∧ ∀ fuel, n ≤ fuel → loop fuel ⟨code, 0, none⟩ = some out := by
  apply loop_result (fun s => Kept code s.code ∧ s.start = none ∧ Free s.code '/' '*' ∧ ∃ b, s.code = b ++ ['\n'])
  · rintro s ⟨hk, hst, hno, b, hb⟩ hcond
    have hs := step_is s
    generalize step s = s' at hs
    cases hs with
    | skip h1 h2 => exact ⟨⟨hk, hst, hno, b, hb⟩, Or.inr ⟨rfl, by simp only; omega⟩⟩
    | line p m v hn hbd hat hpos hneg hc hm hl =>
      have hp : p ≤ s.code.length := by have := hat.lt; omega
      obtain ⟨k1, k2, k3⟩ := line_removed s.code p m v hp hc hm hl
      refine ⟨⟨hk.trans k1, rfl, fun q hq => ?_, ?_⟩, Or.inl k2⟩
      · obtain ⟨q', _, h'⟩ := k3 q '/' '*' (by decide) (by decide) hq
        exact hno q' h'
      · rcases List.eq_nil_or_concat v with rfl | ⟨v', x, rfl⟩
        · exact ⟨s.code.take p, rfl⟩
        · have : x = '\n' := by
            have h4 := congrArg List.getLast? hc
            rw [show s.code.take p ++ m ++ '\n' :: v'.concat x = (s.code.take p ++ m ++ '\n' :: v') ++ [x] by simp,
              List.getLast?_append, hb] at h4
            simpa using h4.symm
          subst this
          exact ⟨s.code.take p ++ '\n' :: v', by simp⟩
    | lastLine p hn hbd hat hpos hneg hc =>
      exact absurd (ends_newline s.code b p hb (by have := hat.lt; omega)) hc
    | opens p hn hat hpos hneg => exact absurd hat (hno p)
    | closes p c hn hat hpos hneg => rw [hst] at hn; simp at hn
  · rintro s ⟨hk, _⟩ _
    exact hk
  · exact ⟨Kept.refl code, rfl, hfree, body, hend⟩

/-- C40, partial: if the text contains no `/*` and ends with a newline, stripping terminates and keeps lines. -/
theorem C40_line_comments_partial (macros pragmas : Bool) (code body : List Char)
    (hend : cleanMacros macros pragmas code = body ++ ['\n'])
    (hfree : Free (cleanMacros macros pragmas code) '/' '*') :
    ∃ out n, LinesKept code out ∧ ∀ fuel, n ≤ fuel → cleanCode fuel true macros pragmas code = some out := by
  obtain ⟨out, n, h1, h2⟩ := loop_no_block _ body hend hfree
  exact ⟨out, n, (macros_linesKept macros pragmas code).trans h1.lines, fun fuel hf => by simpa [cleanCode] using h2 fuel hf⟩

/-! ### Texts with both kinds of comments -/

theorem splitNl_snoc_line (u m : List Char) (hm : '\n' ∉ m) :
    ∃ init w, splitNl u = init ++ [w] ∧ splitNl (u ++ m) = init ++ [w ++ m] := by
  induction u with
  | nil => exact ⟨[], [], rfl, by simpa using splitNl_line m hm⟩
  | cons c u ih =>
    obtain ⟨init, w, h1, h2⟩ := ih
    by_cases hc : c = '\n'
    · exact ⟨[] :: init, w, by simp [splitNl, hc, h1], by simp [splitNl, hc, h2]⟩
    · cases init with
      | nil => exact ⟨[], c :: w, by simp [splitNl, hc, h1], by simp [splitNl, hc, h2]⟩
      | cons a init => exact ⟨(c :: a) :: init, w, by simp [splitNl, hc, h1], by simp [splitNl, hc, h2]⟩

theorem part_of_line (u m v : List Char) (hm : '\n' ∉ m) : ∃ l ∈ splitNl (u ++ m ++ '\n' :: v), m.length ≤ l.length := by
  obtain ⟨init, w, _, h2⟩ := splitNl_snoc_line u m hm
  rw [splitNl_append, h2]
  exact ⟨w ++ m, by simp, by simp⟩

theorem kept_line_length {a b : List Char} (n : Nat) (h : Kept a b) (ha : ∀ l ∈ splitNl a, l.length ≤ n) :
    ∀ l ∈ splitNl b, l.length ≤ n := by
  have hl : LinesKept a b := h.lines
  unfold LinesKept at hl
  generalize splitNl a = x at *
  generalize splitNl b = y at *
  induction hl with
  | nil => simp
  | cons h t ih =>
    intro l hl
    rcases List.mem_cons.mp hl with rfl | hl
    · exact le_trans h.length_le (ha _ (by simp))
    · exact ih (fun x hx => ha x (by simp [hx])) l hl

/-- Two characters in `A` followed by a newline and a text without them are in `A`. -/
theorem at_front (A B : List Char) (p : Nat) (a b : Char) (hB : Free ('\n' :: B) a b) (hb : b ≠ '\n')
    (h : At (A ++ '\n' :: B) p a b) : p + 2 ≤ A.length := by
  by_contra hlt
  by_cases h1 : p + 1 = A.length
  · have e2 := h.2
    have := getElem?_append_len A ('\n' :: B) (p + 1) 0 h1.symm
    rw [Nat.add_zero] at this
    rw [this] at e2
    simp only [List.getElem?_cons_zero, Option.some.injEq] at e2
    exact hb e2.symm
  · obtain ⟨j, rfl⟩ : ∃ j, p = A.length + j := ⟨p - A.length, by omega⟩
    obtain ⟨e1, e2⟩ := h
    rw [getElem?_append_len _ _ _ j rfl] at e1
    rw [Nat.add_assoc, getElem?_append_len _ _ _ (j + 1) rfl] at e2
    exact hB j ⟨e1, e2⟩

/-- What holds during the loop when the text ends with the comment-free `B`. -/
def Mixed (A B : List Char) (s : St) : Prop := Kept (A ++ '\n' :: B) s.code ∧ (∃ A', s.code = A' ++ '\n' :: B) ∧
    -((B.length : Int) + 1) ≤ s.idx ∧ ∀ c, s.start = some c → 0 ≤ c ∧ c < s.idx

theorem mixed_step (A B : List Char) (h1 : Free ('\n' :: B) '/' '/') (h2 : Free ('\n' :: B) '/' '*')
    (h3 : Free ('\n' :: B) '*' '/') (hlen : ∀ l ∈ splitNl (A ++ '\n' :: B), l.length ≤ B.length + 1)
    (s : St) (hI : Mixed A B s) :
    Mixed A B (step s) ∧ ((step s).code.length < s.code.length ∨
      ((step s).code.length = s.code.length ∧ s.idx < (step s).idx)) := by
  obtain ⟨hk, ⟨A', hA⟩, hi, hst⟩ := hI
  have hs := step_is s
  have hcl : s.code.length = A'.length + (B.length + 1) := by rw [hA]; simp
  have front : ∀ p a b, Free ('\n' :: B) a b → b ≠ '\n' → At s.code p a b → p + 2 ≤ A'.length := by
    intro p a b hf hb hat
    rw [hA] at hat
    exact at_front A' B p a b hf hb hat
  have nonneg : ∀ p : Nat, p + 2 ≤ A'.length → (s.idx < 0 → (p : Int) = s.idx + s.code.length ∧ s.idx ≤ -3) → 0 ≤ s.idx := by
    intro p hp hneg
    by_contra hlt
    have := hneg (by omega)
    omega
  generalize step s = s' at hs
  cases hs with
  | skip h1 h2 =>
    refine ⟨⟨hk, ⟨A', hA⟩, by simp only; omega, fun c hc => ?_⟩, Or.inr ⟨rfl, by simp only; omega⟩⟩
    have := hst c hc
    simp only
    omega
  | line p m v hn hbd hat hpos hneg hc hm hl =>
    have hp := front p _ _ h1 (by decide) hat
    have hi0 := nonneg p hp hneg
    have hpi := hpos hi0
    obtain ⟨k1, k2, _⟩ := line_removed s.code p m v (by omega) hc hm hl
    have hml : m.length ≤ B.length + 1 := by
      have hlines := kept_line_length (B.length + 1) hk hlen
      obtain ⟨l, hl1, hl2⟩ := part_of_line (s.code.take p) m v hm
      rw [← hc] at hl1
      exact le_trans hl2 (hlines l hl1)
    have hpm : p + m.length ≤ A'.length := by
      by_contra hgt
      apply hm
      have e1 : s.code[A'.length]? = some '\n' := by
        have := getElem?_append_len A' ('\n' :: B) _ 0 rfl
        rw [Nat.add_zero] at this
        rw [hA, this]; rfl
      have hl1 : (s.code.take p).length = p := by rw [List.length_take]; omega
      obtain ⟨j, hj⟩ : ∃ j, A'.length = p + j := ⟨A'.length - p, by omega⟩
      rw [hc, List.append_assoc, hj, getElem?_append_len _ _ p j hl1, List.getElem?_append_left (by omega)] at e1
      exact List.mem_of_getElem? e1
    have hv : '\n' :: v = A'.drop (p + m.length) ++ '\n' :: B := by
      have hl2 : (s.code.take p ++ m).length = p + m.length := by
        rw [List.length_append, List.length_take]; omega
      have : s.code.drop (p + m.length) = '\n' :: v := by
        conv_lhs => rw [hc, ← hl2]
        exact List.drop_left
      rw [← this, hA, List.drop_append_of_le_length hpm]
    refine ⟨⟨hk.trans k1, ⟨s.code.take p ++ A'.drop (p + m.length), by rw [hv, List.append_assoc]⟩, by simp only; omega, by simp⟩, Or.inl k2⟩
  | lastLine p hn hbd hat hpos hneg hc =>
    have hp := front p _ _ h1 (by decide) hat
    exfalso
    apply hc
    rw [hA, List.drop_append_of_le_length (by omega)]
    simp
  | opens p hn hat hpos hneg =>
    have hp := front p _ _ h2 (by decide) hat
    have hi0 := nonneg p hp hneg
    refine ⟨⟨hk, ⟨A', hA⟩, by simp only; omega, fun c hc => ?_⟩, Or.inr ⟨rfl, by simp only; omega⟩⟩
    simp only [Option.some.injEq] at hc
    simp only
    omega
  | closes p c hn hat hpos hneg =>
    have hp := front p _ _ h3 (by decide) hat
    have hi0 := nonneg p hp hneg
    have hpi := hpos hi0
    obtain ⟨hc0, hci⟩ := hst c hn
    obtain ⟨c, rfl⟩ := Int.eq_ofNat_of_zero_le hc0
    obtain ⟨f1, f2, f3, f4⟩ := closes_form s.code c p (by omega) hat
    rw [← hpi, f2, f3, f4]
    have hcount := List.count_le_length (l := (s.code.take p).drop c) (a := '\n')
    simp only [List.length_take, List.length_drop] at hcount
    have hkept : Kept s.code (s.code.take c ++ List.replicate (((s.code.take p).drop c).count '\n') '\n' ++
        s.code.drop (p + 2)) := by
      conv => enter [1]; rw [f1]
      exact kept_block _ _ _ _ _ (by decide) (by decide)
    have hd : s.code.drop (p + 2) = A'.drop (p + 2) ++ '\n' :: B := by
      rw [hA, List.drop_append_of_le_length hp]
    refine ⟨⟨hk.trans hkept, ⟨s.code.take c ++ List.replicate (((s.code.take p).drop c).count '\n') '\n' ++ A'.drop (p + 2), by
      rw [hd, ← List.append_assoc]⟩, by simp only; omega, by simp⟩, Or.inl ?_⟩
    simp only [List.length_append, List.length_take, List.length_replicate, List.length_drop]
    omega

theorem loop_mixed (A B : List Char) (h1 : Free ('\n' :: B) '/' '/') (h2 : Free ('\n' :: B) '/' '*')
    (h3 : Free ('\n' :: B) '*' '/') (hlen : ∀ l ∈ splitNl (A ++ '\n' :: B), l.length ≤ B.length + 1) :
    ∃ out n, (Kept (A ++ '\n' :: B) out ∧ ∃ A', out = A' ++ '\n' :: B) ∧
      ∀ fuel, n ≤ fuel → loop fuel ⟨A ++ '\n' :: B, 0, none⟩ = some out := by
  apply loop_result (Mixed A B)
  · intro s hI _
    exact mixed_step A B h1 h2 h3 hlen s hI
  · rintro s ⟨hk, hA, _⟩ _
    exact ⟨hk, hA⟩
  · exact ⟨Kept.refl _, ⟨A, rfl⟩, by simp only; omega, by simp⟩

/-- C40, partial: texts with both kinds of comments. If the text ends with comment-free lines that are together at least
as long as the longest line of the text, stripping terminates, keeps lines and does not touch the comment-free end. This
is the usual shape of a kernel file. Missing: files whose last comment is nearer to the end than that (`C40_negation`). -/
theorem C40_mixed_partial (macros pragmas : Bool) (code A B : List Char)
    (hsplit : cleanMacros macros pragmas code = A ++ '\n' :: B)
    (h1 : Free ('\n' :: B) '/' '/') (h2 : Free ('\n' :: B) '/' '*') (h3 : Free ('\n' :: B) '*' '/')
    (hlen : ∀ l ∈ splitNl (A ++ '\n' :: B), l.length ≤ B.length + 1) :
    ∃ out n, LinesKept code out ∧ (∃ A', out = A' ++ '\n' :: B) ∧
      ∀ fuel, n ≤ fuel → cleanCode fuel true macros pragmas code = some out := by
  obtain ⟨out, n, ⟨g1, g2⟩, g3⟩ := loop_mixed A B h1 h2 h3 hlen
  rw [← hsplit] at g1 g3
  exact ⟨out, n, (macros_linesKept macros pragmas code).trans g1.lines, g2, fun fuel hf => by simpa [cleanCode] using g3 fuel hf⟩

/-- A file with a comment in the first line and a comment at its end, without final newline. -/
def badFile : List Char := "//aaaaaaaaaaaa\n/* x\n */ c\n /* y */".toList

/-- C40 does not hold: in this file the position runs below zero after the first comment, wraps around to the end of
the file, and text is duplicated: four lines become five. -/
theorem C40_negation : ∃ out, cleanCode 200 true false false badFile = some out ∧
    (splitNl badFile).length = 4 ∧ (splitNl out).length = 5 ∧ out = "\n\n c\n  c\n ".toList := by
  exact ⟨"\n\n c\n  c\n ".toList, by decide +kernel, by decide +kernel, by decide +kernel, rfl⟩

/-- A kernel file with both kinds of comments. -/
def goodFile : List Char := "// head\n/* two\n lines */ a; // x\nfor(i=0; i<N; ++i) {\n".toList

/-- It meets the hypotheses of `C40_mixed_partial`. -/
example : goodFile = "// head\n/* two\n lines */ a; // x".toList ++ '\n' :: "for(i=0; i<N; ++i) {\n".toList ∧
    (∀ l ∈ splitNl goodFile, l.length ≤ "for(i=0; i<N; ++i) {\n".toList.length + 1) ∧
    cleanCode 300 true false false goodFile = some "\n\n a; \nfor(i=0; i<N; ++i) {\n".toList := by
  refine ⟨by decide +kernel, by decide +kernel, by decide +kernel⟩

end Verif.Clean
