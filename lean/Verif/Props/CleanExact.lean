import Verif.Props.Clean
import Verif.Lemmas.Strip
import Mathlib.Data.List.Infix

/-!
C65: exactly the comments are removed.
-/

namespace Verif.Clean

open Verif.Text Verif.Spec

theorem At.drop {s : List Char} {p : Nat} {a b : Char} (h : At s p a b) : s.drop p = a :: b :: s.drop (p + 2) := by
  obtain ⟨e1, e2⟩ := h
  rw [List.getElem?_eq_some_iff] at e1 e2
  obtain ⟨l1, e1⟩ := e1
  obtain ⟨l2, e2⟩ := e2
  rw [List.drop_eq_getElem_cons l1, List.drop_eq_getElem_cons l2, e1, e2]

/-- No comment begins before `P`. -/
def CleanTo (s : List Char) (P : Nat) : Prop := ∀ q < P, ¬ At s q '/' '/' ∧ ¬ At s q '/' '*'

/-- Invariant of the loop: the text before the position reached so far is clean and final, the rest is a part of the
original text that is still to be stripped. -/
def Progress (orig target : List Char) (s : St) : Prop :=
  match s.start with
  | none => ∃ P : Nat, s.idx ≤ P ∧ P ≤ s.code.length ∧ CleanTo s.code P ∧
      target = s.code.take P ++ stripC .code (s.code.drop P) ∧ endMode .code (s.code.drop P) ≠ .block ∧
      s.code.drop P <:+ orig
  | some c => ∃ c' : Nat, c = c' ∧ CleanTo s.code c' ∧ At s.code c' '/' '*' ∧
      ((s.idx = c + 1 ∧ target = s.code.take c' ++ stripC .code (s.code.drop c') ∧
          endMode .code (s.code.drop c') ≠ .block ∧ s.code.drop c' <:+ orig) ∨
        ∃ i : Nat, s.idx = i ∧ c' + 2 ≤ i ∧ i ≤ s.code.length ∧
          target = s.code.take c' ++ List.replicate (((s.code.take i).drop (c' + 2)).count '\n') '\n' ++
            stripC .block (s.code.drop i) ∧
          endMode .block (s.code.drop i) ≠ .block ∧ s.code.drop i <:+ orig)

/-- `a`, `b`, `c` occur nowhere in a row. -/
def Free3 (s : List Char) (a b c : Char) : Prop := ∀ u v, s ≠ u ++ a :: b :: c :: v

theorem Free3.suffix {s : List Char} {a b c : Char} (h : Free3 s a b c) {v : List Char} (hv : (a :: b :: c :: v) <:+ s) : False := by
  obtain ⟨u, hu⟩ := hv
  exact h u v hu.symm

theorem take_succ_eq (s : List Char) (i : Nat) (x : Char) (h : s.drop i = x :: s.drop (i + 1)) (hi : i < s.length) :
    s.take (i + 1) = s.take i ++ [x] := by
  rw [List.take_succ_eq_append_getElem hi]
  rw [List.drop_eq_getElem_cons hi] at h
  simp only [List.cons.injEq, and_true] at h
  rw [h]

theorem progress_step (A B orig target : List Char) (h1 : Free ('\n' :: B) '/' '/') (h2 : Free ('\n' :: B) '/' '*')
    (h3 : Free ('\n' :: B) '*' '/') (t1 : Free3 orig '*' '/' '/') (t2 : Free3 orig '/' '*' '/')
    (s : St) (hI : Mixed A B s) (hP : Progress orig target s) (hcond : Cond s) : Progress orig target (step s) := by
  obtain ⟨hk, ⟨A', hA⟩, hi, hst⟩ := hI
  have hs := step_is s
  have hcl : s.code.length = A'.length + (B.length + 1) := by rw [hA]; simp
  have front : ∀ p a b, Free ('\n' :: B) a b → b ≠ '\n' → At s.code p a b → p + 2 ≤ A'.length := by
    intro p a b hf hb hat
    rw [hA] at hat
    exact at_front A' B p a b hf hb hat
  have nonneg : ∀ p : Nat, p + 2 ≤ A'.length → (s.idx < 0 → (p : Int) = s.idx + s.code.length ∧ s.idx ≤ -3) → 0 ≤ s.idx := by
    intro p hp hneg
    by_contra hlt
    have := hneg (by omega)
    omega
  unfold Cond at hcond
  generalize step s = s' at hs
  cases hs with
  | skip g1 g2 =>
    cases hstart : s.start with
    | none =>
      simp only [Progress, hstart] at hP ⊢
      obtain ⟨P, p1, p2, p3, p4, p5, p6⟩ := hP
      by_cases hlt : s.idx < P
      · exact ⟨P, by omega, p2, p3, p4, p5, p6⟩
      · have hidx : s.idx = P := by omega
        have hlt' : P < s.code.length := by omega
        have hd := List.drop_eq_getElem_cons hlt'
        obtain ⟨w1, w2⟩ := g1 hstart
        rw [hidx] at w1 w2
        have n1 : ¬ At s.code P '/' '/' := fun h => w1 (window_nonneg _ _ _ _ h)
        have n2 : ¬ At s.code P '/' '*' := fun h => w2 (window_nonneg _ _ _ _ h)
        have hx : s.code[P]? = some s.code[P] := List.getElem?_eq_getElem hlt'
        have hhead : (s.code.drop (P + 1)).head? = s.code[P + 1]? := by rw [List.head?_drop]
        obtain ⟨k1, k2⟩ := strip_keep s.code[P] (s.code.drop (P + 1))
          (fun e h => n1 ⟨by rw [hx, e], by rw [← hhead, h]⟩) (fun e h => n2 ⟨by rw [hx, e], by rw [← hhead, h]⟩)
        refine ⟨P + 1, by omega, by omega, ?_, ?_, ?_, ?_⟩
        · intro q hq
          by_cases hqP : q = P
          · subst hqP; exact ⟨n1, n2⟩
          · exact p3 q (by omega)
        · rw [p4, hd, k1, take_succ_eq s.code P _ hd hlt', List.append_assoc, List.singleton_append]
        · rw [hd, k2] at p5; exact p5
        · rw [hd] at p6
          exact (List.suffix_cons _ _).trans p6
    | some c =>
      simp only [Progress, hstart] at hP ⊢
      obtain ⟨c', rfl, p1, p2, p3⟩ := hP
      refine ⟨c', rfl, p1, p2, Or.inr ?_⟩
      have hd := p2.drop
      have hlt := p2.lt
      rcases p3 with ⟨q1, q2, q3, q4⟩ | ⟨i, q1, q2, q3, q4, q5, q6⟩
      · rw [hd] at q2 q3 q4
        obtain ⟨k1, k2⟩ := strip_open (s.code.drop (c' + 2))
        refine ⟨c' + 2, by omega, le_refl _, by omega, ?_, ?_, ?_⟩
        · rw [List.drop_take]
          simp only [Nat.sub_self, List.take_zero, List.count_nil, List.replicate_zero, List.append_nil]
          rw [q2, k1]
        · rw [k2] at q3; exact q3
        · exact ((List.suffix_cons _ _).trans (List.suffix_cons _ _)).trans q4
      · have hlt' : i < s.code.length := by omega
        have hdi := List.drop_eq_getElem_cons hlt'
        have hw := g2 (by rw [hstart]; simp)
        rw [q1] at hw
        have n1 : ¬ At s.code i '*' '/' := fun h => hw (window_nonneg _ _ _ _ h)
        have hx : s.code[i]? = some s.code[i] := List.getElem?_eq_getElem hlt'
        have hhead : (s.code.drop (i + 1)).head? = s.code[i + 1]? := by rw [List.head?_drop]
        obtain ⟨k1, k2⟩ := strip_block s.code[i] (s.code.drop (i + 1))
          (fun e h => n1 ⟨by rw [hx, e], by rw [← hhead, h]⟩)
        refine ⟨i + 1, by omega, by omega, by omega, ?_, ?_, ?_⟩
        · rw [q4, hdi, k1, take_succ_eq s.code i _ hdi hlt',
            List.drop_append_of_le_length (by rw [List.length_take]; omega), List.count_append,
            List.replicate_add]
          simp only [List.append_assoc]
        · rw [hdi, k2] at q5; exact q5
        · rw [hdi] at q6
          exact (List.suffix_cons _ _).trans q6
  | line p m v hn hbd hat hpos hneg hc hm hl =>
    simp only [Progress, hn] at hP ⊢
    obtain ⟨P, p1, p2, p3, p4, p5, p6⟩ := hP
    have hp := front p _ _ h1 (by decide) hat
    have hi0 := nonneg p hp hneg
    have hpi := hpos hi0
    have hpP : p = P := by
      by_contra hne
      exact (p3 p (by omega)).1 hat
    subst hpP
    have hl1 : (s.code.take p).length = p := by rw [List.length_take]; omega
    have hdm : s.code.drop p = m ++ '\n' :: v := by
      have : s.code.drop p = (s.code.take p ++ (m ++ '\n' :: v)).drop (s.code.take p).length := by
        rw [← List.append_assoc, ← hc, hl1]
      rw [this, List.drop_left]
    obtain ⟨m', rfl⟩ : ∃ m', m = '/' :: '/' :: m' := by
      have := hat.drop
      rw [hdm] at this
      match m, hl with
      | a :: b :: m', _ =>
        simp only [List.cons_append, List.cons.injEq] at this
        exact ⟨m', by rw [this.1, this.2.1]⟩
    obtain ⟨_, _, k3⟩ := line_removed s.code p _ v (by omega) hc hm hl
    obtain ⟨e1, e2⟩ := strip_line (m' ++ '\n' :: v)
    obtain ⟨e3, e4⟩ := strip_line_end m' v (fun h => hm (by simp [h]))
    simp only [List.cons_append] at hdm
    rw [hdm] at p4 p5 p6
    rw [e1, e3] at p4
    rw [e2, e4] at p5
    have ht : (s.code.take p ++ '\n' :: v).take (p + 1) = s.code.take p ++ ['\n'] := by
      rw [List.take_append, hl1]
      simp
    have hdr : (s.code.take p ++ '\n' :: v).drop (p + 1) = v := by
      rw [List.drop_append, hl1]
      simp
    refine ⟨p + 1, by simp only [List.length_cons] at *; omega, by simp; omega, ?_, ?_, ?_, ?_⟩
    · intro q hq
      by_cases hqp : q < p
      · constructor
        · intro h
          obtain ⟨q', h', hat'⟩ := k3 q _ _ (by decide) (by decide) h
          rw [h' hqp] at hat'
          exact (p3 q hqp).1 hat'
        · intro h
          obtain ⟨q', h', hat'⟩ := k3 q _ _ (by decide) (by decide) h
          rw [h' hqp] at hat'
          exact (p3 q hqp).2 hat'
      · have : q = p := by omega
        subst this
        have e := getElem?_append_len (s.code.take q) ('\n' :: v) q 0 hl1
        rw [Nat.add_zero] at e
        constructor
        · intro h
          have := h.1
          rw [e] at this
          simp at this
        · intro h
          have := h.1
          rw [e] at this
          simp at this
    · rw [ht, hdr, p4, List.append_assoc, List.singleton_append]
    · rw [hdr]; exact p5
    · rw [hdr]
      refine List.IsSuffix.trans ?_ p6
      exact ⟨'/' :: '/' :: m' ++ ['\n'], by simp⟩
  | lastLine p hn hbd hat hpos hneg hc =>
    have hp := front p _ _ h1 (by decide) hat
    exfalso
    apply hc
    rw [hA, List.drop_append_of_le_length (by omega)]
    simp
  | opens p hn hat hpos hneg =>
    simp only [Progress, hn] at hP ⊢
    obtain ⟨P, p1, p2, p3, p4, p5, p6⟩ := hP
    have hp := front p _ _ h2 (by decide) hat
    have hi0 := nonneg p hp hneg
    have hpi := hpos hi0
    have hpP : p = P := by
      by_contra hne
      exact (p3 p (by omega)).2 hat
    subst hpP
    exact ⟨p, hpi.symm, p3, hat, Or.inl ⟨trivial, p4, p5, p6⟩⟩
  | closes p c hn hat hpos hneg =>
    simp only [Progress, hn] at hP ⊢
    have hp := front p _ _ h3 (by decide) hat
    have hi0 := nonneg p hp hneg
    have hpi := hpos hi0
    obtain ⟨c', rfl, p1, p2, p3⟩ := hP
    have hd := p2.drop
    rcases p3 with ⟨q1, q2, q3, q4⟩ | ⟨i, q1, q2, q3, q4, q5, q6⟩
    · exfalso
      have hpc : p = c' + 1 := by omega
      subst hpc
      have h' := hat.2
      rw [hd] at q4
      have hd2 : s.code.drop (c' + 2) = '/' :: s.code.drop (c' + 3) := by
        rw [List.getElem?_eq_some_iff] at h'
        obtain ⟨l, e⟩ := h'
        rw [List.drop_eq_getElem_cons l, e]
      rw [hd2] at q4
      exact t2.suffix q4
    · have hip : i = p := by omega
      subst hip
      obtain ⟨f1, f2, f3, f4⟩ := closes_form s.code c' i (by omega) hat
      rw [← hpi, f2, f3, f4]
      have hdp := hat.drop
      have hlt := hat.lt
      rw [hdp] at q4 q5 q6
      obtain ⟨k1, k2⟩ := strip_close (s.code.drop (i + 2))
      rw [k1] at q4
      rw [k2] at q5
      have hcnt : ((s.code.take i).drop c').count '\n' = ((s.code.take i).drop (c' + 2)).count '\n' := by
        have : (s.code.take i).drop c' = '/' :: '*' :: (s.code.take i).drop (c' + 2) := by
          rw [List.drop_take, hd, List.drop_take]
          obtain ⟨j, rfl⟩ : ∃ j, i = c' + 2 + j := ⟨i - (c' + 2), by omega⟩
          have e1 : c' + 2 + j - c' = j + 2 := by omega
          have e2 : c' + 2 + j - (c' + 2) = j := by omega
          rw [e1, e2]
          rfl
        rw [this]
        simp
      rw [hcnt]
      generalize hk' : ((s.code.take i).drop (c' + 2)).count '\n' = k at *
      have hlt2 : i + 2 < s.code.length := by omega
      have hdd := List.drop_eq_getElem_cons hlt2
      generalize hdc : s.code[i + 2] = d at hdd
      have hdne : d ≠ '/' := by
        intro e
        rw [hdd, e] at q6
        exact t1.suffix q6
      obtain ⟨k3, k4⟩ := strip_keep d (s.code.drop (i + 2 + 1)) (fun e => absurd e hdne) (fun e => absurd e hdne)
      rw [hdd] at q4 q5 q6 ⊢
      rw [k3] at q4
      rw [k4] at q5
      have hl1 : (s.code.take c').length = c' := by rw [List.length_take]; omega
      have hl2 : (s.code.take c' ++ List.replicate k '\n').length = c' + k := by simp; omega
      have ht : (s.code.take c' ++ List.replicate k '\n' ++ d :: s.code.drop (i + 2 + 1)).take (c' + k + 1) =
          s.code.take c' ++ List.replicate k '\n' ++ [d] := by
        rw [List.take_append, hl2, List.take_of_length_le (by omega)]
        simp
      have hdr : (s.code.take c' ++ List.replicate k '\n' ++ d :: s.code.drop (i + 2 + 1)).drop (c' + k + 1) =
          s.code.drop (i + 2 + 1) := by
        rw [List.drop_append, hl2, List.drop_eq_nil_of_le (by omega)]
        simp
      have clean : ∀ q < c' + k + 1, ∀ x, x = '/' ∨ x = '*' →
          ¬ At (s.code.take c' ++ List.replicate k '\n' ++ d :: s.code.drop (i + 2 + 1)) q '/' x := by
        intro q hq x hx hatq
        have a1 := hatq.1
        have a2 := hatq.2
        by_cases hqc : q < c'
        · rw [List.append_assoc, List.getElem?_append_left (by omega), List.getElem?_take, if_pos hqc] at a1
          by_cases hqc2 : q + 1 < c'
          · rw [List.append_assoc, List.getElem?_append_left (by omega), List.getElem?_take, if_pos hqc2] at a2
            rcases hx with rfl | rfl
            · exact (p1 q hqc).1 ⟨a1, a2⟩
            · exact (p1 q hqc).2 ⟨a1, a2⟩
          · have : q + 1 = c' := by omega
            exact (p1 q hqc).1 ⟨a1, by rw [this]; exact p2.1⟩
        · by_cases hqk : q < c' + k
          · rw [List.getElem?_append_left (by omega), List.getElem?_append_right (by omega), List.getElem?_replicate,
              if_pos (by omega)] at a1
            simp at a1
          · have : q = c' + k := by omega
            rw [this, List.getElem?_append_right (by omega), hl2, Nat.sub_self] at a1
            simp only [List.getElem?_cons_zero, Option.some.injEq] at a1
            exact hdne a1
      refine ⟨c' + k + 1, by push_cast; omega, ?_, fun q hq => ⟨clean q hq _ (Or.inl rfl), clean q hq _ (Or.inr rfl)⟩, ?_, ?_, ?_⟩
      · rw [List.length_append, hl2]; simp
      · rw [ht, hdr, q4]; simp
      · rw [hdr]; exact q5
      · rw [hdr]
        refine List.IsSuffix.trans ?_ q6
        exact ⟨['*', '/', d], by simp⟩

theorem strip_short (l : List Char) (h : l.length ≤ 1) : stripC .code l = l ∧ endMode .block l = .block := by
  match l, h with
  | [], _ => exact ⟨by rw [stripC], by rw [endMode]⟩
  | [c], _ =>
    obtain ⟨k1, _⟩ := strip_keep c [] (by simp) (by simp)
    obtain ⟨_, k2⟩ := strip_block c [] (by simp)
    refine ⟨?_, ?_⟩
    · rw [k1, stripC]
    · rw [k2, endMode]

/-- C65, partial: if the text has neither `*//` nor `/*/`, every block comment is closed, and the text ends with
comment-free lines at least as long as its longest line, the result is the text with exactly its comments removed, newlines
kept. Missing: the three kinds of texts of the negations below. -/
theorem C65_exact_partial (macros pragmas : Bool) (code A B : List Char)
    (hsplit : cleanMacros macros pragmas code = A ++ '\n' :: B)
    (h1 : Free ('\n' :: B) '/' '/') (h2 : Free ('\n' :: B) '/' '*') (h3 : Free ('\n' :: B) '*' '/')
    (hlen : ∀ l ∈ splitNl (A ++ '\n' :: B), l.length ≤ B.length + 1)
    (t1 : Free3 (A ++ '\n' :: B) '*' '/' '/') (t2 : Free3 (A ++ '\n' :: B) '/' '*' '/')
    (hclosed : endMode .code (A ++ '\n' :: B) ≠ .block) :
    ∃ n, ∀ fuel, n ≤ fuel →
      cleanCode fuel true macros pragmas code = some (stripC .code (cleanMacros macros pragmas code)) := by
  have key : ∃ out n, out = stripC .code (A ++ '\n' :: B) ∧
      ∀ fuel, n ≤ fuel → loop fuel ⟨A ++ '\n' :: B, 0, none⟩ = some out := by
    apply loop_result (fun s => Mixed A B s ∧ Progress (A ++ '\n' :: B) (stripC .code (A ++ '\n' :: B)) s)
    · rintro s ⟨hI, hP⟩ hcond
      obtain ⟨m1, m2⟩ := mixed_step A B h1 h2 h3 hlen s hI
      exact ⟨⟨m1, progress_step A B _ _ h1 h2 h3 t1 t2 s hI hP hcond⟩, m2⟩
    · rintro s ⟨hI, hP⟩ hcond
      unfold Cond at hcond
      cases hstart : s.start with
      | none =>
        simp only [Progress, hstart] at hP
        obtain ⟨P, p1, p2, _, p4, _, _⟩ := hP
        have := (strip_short (s.code.drop P) (by rw [List.length_drop]; omega)).1
        rw [p4, this, List.take_append_drop]
      | some c =>
        exfalso
        simp only [Progress, hstart] at hP
        obtain ⟨c', rfl, _, p2, p3⟩ := hP
        have hlt := p2.lt
        rcases p3 with ⟨q1, _, q3, _⟩ | ⟨i, q1, _, _, _, q5, _⟩
        · rw [p2.drop, (strip_open _).2] at q3
          exact q3 (strip_short _ (by rw [List.length_drop]; omega)).2
        · exact q5 (strip_short _ (by rw [List.length_drop]; omega)).2
    · refine ⟨⟨Kept.refl _, ⟨A, rfl⟩, by simp only; omega, by simp⟩, ?_⟩
      simp only [Progress]
      exact ⟨0, by simp, by omega, fun q hq => absurd hq (by omega), by simp, by simpa using hclosed, by simp⟩
  obtain ⟨out, n, rfl, hn⟩ := key
  refine ⟨n, fun fuel hf => ?_⟩
  rw [hsplit]
  unfold cleanCode
  simp only [if_true]
  rw [hsplit]
  exact hn fuel hf

instance (s : List Char) (p : Nat) (a b : Char) : Decidable (At s p a b) := by unfold At; infer_instance

theorem free_check (s : List Char) (a b : Char) (h : ∀ p < s.length, ¬ At s p a b) : Free s a b := by
  intro p hat
  exact h p (by have := hat.lt; omega) hat

theorem free3_check (s : List Char) (a b c : Char) (h : ∀ p < s.length, ¬ (At s p a b ∧ At s (p + 1) b c)) :
    Free3 s a b c := by
  rintro u v rfl
  refine h u.length (by simp) ⟨⟨?_, ?_⟩, ?_, ?_⟩
  · exact getElem?_append_len u _ _ 0 rfl
  · exact getElem?_append_len u _ _ 1 rfl
  · exact getElem?_append_len u _ _ 1 rfl
  · exact getElem?_append_len u _ _ 2 rfl

/-- `goodFile` meets the hypotheses of `C65_exact_partial` and hence of `C40_mixed_partial`. -/
example : ∃ n, ∀ fuel, n ≤ fuel → cleanCode fuel true true true goodFile =
    some "\n\n a; \nfor(i=0; i<N; ++i) {\n".toList := by
  have h := C65_exact_partial true true goodFile "// head\n/* two\n lines */ a; // x".toList "for(i=0; i<N; ++i) {\n".toList
    (by decide +kernel) (free_check _ _ _ (by decide +kernel)) (free_check _ _ _ (by decide +kernel))
    (free_check _ _ _ (by decide +kernel)) (by decide +kernel) (free3_check _ _ _ _ (by decide +kernel))
    (free3_check _ _ _ _ (by decide +kernel)) (by decide +kernel)
  have e : stripC .code (cleanMacros true true goodFile) = "\n\n a; \nfor(i=0; i<N; ++i) {\n".toList := by decide +kernel
  rwa [e] at h

/-- C65 does not hold, first kind: of two adjacent comments the second is kept. -/
theorem C65_negation_adjacent : cleanCode 100 true false false "/*a*//*b*/ c\n".toList = some "/*b*/ c\n".toList ∧
    stripC .code "/*a*//*b*/ c\n".toList = " c\n".toList := by
  exact ⟨by decide +kernel, by decide +kernel⟩

/-- C65 does not hold, second kind: the opening `/*/` is taken for a complete comment. -/
theorem C65_negation_overlap : cleanCode 100 true false false "a /*/ b */ c\n".toList = some "a  b */ c\n".toList ∧
    stripC .code "a /*/ b */ c\n".toList = "a  c\n".toList := by
  exact ⟨by decide +kernel, by decide +kernel⟩

/-- C65 does not hold, third kind: after a comment the position wraps around and lands inside a later `///`. -/
theorem C65_negation_wrap : cleanCode 100 true false false "//aaa\nx;///b\n".toList = some "\nx;/\n".toList ∧
    stripC .code "//aaa\nx;///b\n".toList = "\nx;\n".toList := by
  exact ⟨by decide +kernel, by decide +kernel⟩

end Verif.Clean
