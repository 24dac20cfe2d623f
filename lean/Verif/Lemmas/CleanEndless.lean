import Verif.Model.Clean
import Mathlib.Tactic.Ring
import Mathlib.Data.List.Infix

/-!
Lemmas on runs of the comment loop of `clean_code` that never end.
-/

namespace Verif.Clean

/-- State after `k` passes, if the loop runs that long. -/
def runs : Nat → St → Option St
  | 0, s => some s
  | k + 1, s => if s.idx < (s.code.length : Int) - 1 then runs k (step s) else none

theorem loop_runs (k f : Nat) (s t : St) (h : runs k s = some t) : loop (f + k) s = loop f t := by
  induction k generalizing s with
  | zero => simp only [runs, Option.some.injEq] at h; rw [h, Nat.add_zero]
  | succ k ih =>
    rw [runs] at h
    split at h
    · rename_i hs
      rw [← Nat.add_assoc, loop, if_pos hs, ih _ h]
    · cases h

theorem loop_mono (f j : Nat) (s : St) (x : List Char) (h : loop f s = some x) : loop (f + j) s = some x := by
  induction f generalizing s with
  | zero => cases h
  | succ f ih =>
    rw [Nat.add_right_comm, loop]
    rw [loop] at h
    split at h
    · rename_i hs
      rw [if_pos hs, ih _ h]
    · rename_i hs
      rw [if_neg hs, h]

theorem runs_trans (k l : Nat) (s t u : St) (h : runs k s = some t) (h' : runs l t = some u) : runs (k + l) s = some u := by
  induction k generalizing s with
  | zero => simp only [runs, Option.some.injEq] at h; rw [h, Nat.zero_add, h']
  | succ k ih =>
    rw [Nat.add_right_comm, runs]
    rw [runs] at h
    split at h
    · rename_i hs
      rw [if_pos hs, ih _ h]
    · cases h

/-- Some passes lead from one state to the other. -/
def Leads (s t : St) : Prop := ∃ k, runs k s = some t

theorem Leads.trans {s t u : St} (h : Leads s t) (h' : Leads t u) : Leads s u := by
  obtain ⟨k, hk⟩ := h
  obtain ⟨l, hl⟩ := h'
  exact ⟨k + l, runs_trans k l s t u hk hl⟩

theorem Leads.refl (s : St) : Leads s s := ⟨0, rfl⟩

theorem Leads.step (s : St) (h : s.idx < (s.code.length : Int) - 1) : Leads s (step s) := ⟨1, by rw [runs, if_pos h]; rfl⟩

/-- A sequence of states each of which leads to the next one never ends. -/
theorem endless (S : Nat → St) (h : ∀ m, ∃ k, 0 < k ∧ runs k (S m) = some (S (m + 1))) (f m : Nat) : loop f (S m) = none := by
  induction f using Nat.strong_induction_on generalizing m with
  | _ f ih =>
    obtain ⟨k, hk, hr⟩ := h m
    rcases Nat.lt_or_ge f k with hf | hf
    · cases hl : loop f (S m) with
      | none => rfl
      | some x =>
        have h1 := loop_mono f (k - f) _ _ hl
        rw [Nat.add_sub_cancel' hf.le, ← Nat.zero_add k, loop_runs k 0 _ _ hr] at h1
        cases h1
    · have : f = (f - k) + k := by omega
      rw [this, loop_runs k _ _ _ hr]
      exact ih _ (by omega) _

theorem endless_from (s t : St) (h : Leads s t) (ht : ∀ f, loop f t = none) (f : Nat) : loop f s = none := by
  obtain ⟨k, hk⟩ := h
  cases hl : loop f s with
  | none => rfl
  | some x =>
    have h1 := loop_mono f k _ _ hl
    rw [loop_runs k f _ _ hk, ht] at h1
    cases h1

/-! ### Windows -/

theorem window_pos (p r : List Char) : slice (p ++ r) (p.length : Int) ((p.length : Int) + 2) = r.take 2 := by
  have h1 : bound (p ++ r).length (p.length : Int) = p.length := by
    unfold bound
    rw [if_neg (by omega)]
    simp
  have h2 : bound (p ++ r).length ((p.length : Int) + 2) = p.length + min 2 r.length := by
    unfold bound
    rw [if_neg (by omega), List.length_append]
    omega
  rw [slice, h1, h2, List.take_append, List.take_of_length_le (Nat.le_add_right _ _), Nat.add_sub_cancel_left, List.drop_left]
  rcases Nat.le_total 2 r.length with h | h
  · rw [Nat.min_eq_left h]
  · rw [Nat.min_eq_right h, List.take_of_length_le (le_refl _), List.take_of_length_le h]

theorem window_neg (p t : List Char) (k : Nat) (hk : k = t.length) (h : 3 ≤ k) : slice (p ++ t) (-(k : Int)) (-(k : Int) + 2) = t.take 2 := by
  subst hk
  have h1 : bound (p ++ t).length (-(t.length : Int)) = p.length := by
    unfold bound
    rw [if_pos (by omega), List.length_append]
    omega
  have h2 : bound (p ++ t).length (-(t.length : Int) + 2) = p.length + 2 := by
    unfold bound
    rw [if_pos (by omega), List.length_append]
    omega
  rw [slice, h1, h2, List.take_append, List.take_of_length_le (Nat.le_add_right _ _), Nat.add_sub_cancel_left, List.drop_left]

theorem window_two (c : List Char) : slice c (-2) (-2 + 2) = [] := by
  have : bound c.length (-2 + 2) = 0 := by simp [bound]
  rw [slice, this, List.take_zero, List.drop_nil]

theorem window_one (c : List Char) (h : 2 ≤ c.length) : slice c (-1) (-1 + 2) = [] := by
  have h1 : bound c.length (-1 + 2) = 1 := by
    unfold bound
    rw [if_neg (by omega)]
    omega
  have h2 : bound c.length (-1) = c.length - 1 := by
    unfold bound
    rw [if_pos (by omega)]
    omega
  rw [slice, h1, h2, List.drop_eq_nil_iff, List.length_take]
  omega

/-! ### Passes without a match -/

theorem pass_none (c : List Char) (i : Int) (h : i < (c.length : Int) - 1) (h1 : slice c i (i + 2) ≠ ['/', '/']) (h2 : slice c i (i + 2) ≠ ['/', '*']) :
    Leads ⟨c, i, none⟩ ⟨c, i + 1, none⟩ := by
  have := Leads.step ⟨c, i, none⟩ h
  simp only [Clean.step, if_neg h1, if_neg h2] at this
  exact this

theorem pass_some (c : List Char) (i s : Int) (h : i < (c.length : Int) - 1) (h1 : slice c i (i + 2) ≠ ['*', '/']) :
    Leads ⟨c, i, some s⟩ ⟨c, i + 1, some s⟩ := by
  have := Leads.step ⟨c, i, some s⟩ h
  simp only [Clean.step, if_neg h1] at this
  exact this

theorem scan_newlines (p : List Char) (n : Nat) (x : Char) (r : List Char) :
    Leads ⟨p ++ List.replicate n '\n' ++ x :: r, p.length, none⟩ ⟨p ++ List.replicate n '\n' ++ x :: r, (p.length : Int) + n, none⟩ := by
  induction n generalizing p with
  | zero => simpa using Leads.refl _
  | succ n ih =>
    have e : p ++ List.replicate (n + 1) '\n' ++ x :: r = (p ++ ['\n']) ++ List.replicate n '\n' ++ x :: r := by
      rw [List.replicate_succ]
      simp only [List.append_assoc, List.cons_append, List.nil_append]
    have h := ih (p ++ ['\n'])
    rw [← e] at h
    refine Leads.trans ?_ (t := ⟨p ++ List.replicate (n + 1) '\n' ++ x :: r, (p.length : Int) + 1, none⟩) ?_
    · have hw := window_pos p (List.replicate (n + 1) '\n' ++ x :: r)
      rw [← List.append_assoc] at hw
      apply pass_none
      · simp only [List.length_append, List.length_replicate, List.length_cons]
        push_cast
        omega
      · rw [hw, List.replicate_succ, List.cons_append, List.take_succ_cons]
        simp
      · rw [hw, List.replicate_succ, List.cons_append, List.take_succ_cons]
        simp
    · convert h using 2 <;> simp <;> ring

theorem scan_comment (p q : List Char) (x : Char) (r : List Char) (s : Int) (h : ¬ ['*', '/'] <:+: q ++ [x]) :
    Leads ⟨p ++ q ++ x :: r, p.length, some s⟩ ⟨p ++ q ++ x :: r, (p.length : Int) + q.length, some s⟩ := by
  induction q generalizing p with
  | nil => simpa using Leads.refl _
  | cons y q ih =>
    have e : p ++ (y :: q) ++ x :: r = (p ++ [y]) ++ q ++ x :: r := by simp
    have h' := ih (p ++ [y]) fun hi => h (hi.trans (List.suffix_cons y _).isInfix)
    rw [← e] at h'
    refine Leads.trans ?_ (t := ⟨p ++ (y :: q) ++ x :: r, (p.length : Int) + 1, some s⟩) ?_
    · have hw := window_pos p ((y :: q) ++ x :: r)
      rw [← List.append_assoc] at hw
      apply pass_some
      · simp only [List.length_append, List.length_cons]
        push_cast
        omega
      · rw [hw]
        intro hc
        apply h
        cases q with
        | nil => simp only [List.cons_append, List.nil_append, List.take_succ_cons, List.take_zero, List.cons.injEq] at hc; simp [hc.1, hc.2.1]
        | cons z q =>
          simp only [List.cons_append, List.take_succ_cons, List.take_zero, List.cons.injEq] at hc
          exact ⟨[], q ++ [x], by simp [hc.1, hc.2.1]⟩
    · convert h' using 2 <;> simp <;> ring

/-- The last five characters `*a\n**` are passed without a match. -/
theorem scan_tail_none (p : List Char) : Leads ⟨p ++ "*a\n**".toList, -5, none⟩ ⟨p ++ "*a\n**".toList, 0, none⟩ := by
  have hl : (p ++ "*a\n**".toList).length = p.length + 5 := by rw [List.length_append]; rfl
  have w5 := window_neg p "*a\n**".toList 5 rfl (by decide)
  have w4 := window_neg (p ++ ['*']) "a\n**".toList 4 rfl (by decide)
  have w3 := window_neg (p ++ ['*', 'a']) "\n**".toList 3 rfl (by decide)
  have e4 : (p ++ ['*']) ++ "a\n**".toList = p ++ "*a\n**".toList := by rw [List.append_assoc]; rfl
  have e3 : (p ++ ['*', 'a']) ++ "\n**".toList = p ++ "*a\n**".toList := by rw [List.append_assoc]; rfl
  rw [e4] at w4
  rw [e3] at w3
  have w2 := window_two (p ++ "*a\n**".toList)
  have w1 := window_one (p ++ "*a\n**".toList) (by omega)
  generalize p ++ "*a\n**".toList = c at *
  have k5 : Leads ⟨c, -5, none⟩ ⟨c, -4, none⟩ := pass_none c (-5) (by omega) (fun h => absurd (w5.symm.trans h) (by decide)) (fun h => absurd (w5.symm.trans h) (by decide))
  have k4 : Leads ⟨c, -4, none⟩ ⟨c, -3, none⟩ := pass_none c (-4) (by omega) (fun h => absurd (w4.symm.trans h) (by decide)) (fun h => absurd (w4.symm.trans h) (by decide))
  have k3 : Leads ⟨c, -3, none⟩ ⟨c, -2, none⟩ := pass_none c (-3) (by omega) (fun h => absurd (w3.symm.trans h) (by decide)) (fun h => absurd (w3.symm.trans h) (by decide))
  have k2 : Leads ⟨c, -2, none⟩ ⟨c, -1, none⟩ := pass_none c (-2) (by omega) (fun h => absurd (w2.symm.trans h) (by decide)) (fun h => absurd (w2.symm.trans h) (by decide))
  have k1 : Leads ⟨c, -1, none⟩ ⟨c, 0, none⟩ := pass_none c (-1) (by omega) (fun h => absurd (w1.symm.trans h) (by decide)) (fun h => absurd (w1.symm.trans h) (by decide))
  exact k5.trans (k4.trans (k3.trans (k2.trans k1)))

theorem scan_tail_some (p : List Char) (s : Int) : Leads ⟨p ++ "*a\n**".toList, -5, some s⟩ ⟨p ++ "*a\n**".toList, 0, some s⟩ := by
  have hl : (p ++ "*a\n**".toList).length = p.length + 5 := by rw [List.length_append]; rfl
  have w5 := window_neg p "*a\n**".toList 5 rfl (by decide)
  have w4 := window_neg (p ++ ['*']) "a\n**".toList 4 rfl (by decide)
  have w3 := window_neg (p ++ ['*', 'a']) "\n**".toList 3 rfl (by decide)
  have e4 : (p ++ ['*']) ++ "a\n**".toList = p ++ "*a\n**".toList := by rw [List.append_assoc]; rfl
  have e3 : (p ++ ['*', 'a']) ++ "\n**".toList = p ++ "*a\n**".toList := by rw [List.append_assoc]; rfl
  rw [e4] at w4
  rw [e3] at w3
  have w2 := window_two (p ++ "*a\n**".toList)
  have w1 := window_one (p ++ "*a\n**".toList) (by omega)
  generalize p ++ "*a\n**".toList = c at *
  have k5 : Leads ⟨c, -5, some s⟩ ⟨c, -4, some s⟩ := pass_some c (-5) s (by omega) (fun h => absurd (w5.symm.trans h) (by decide))
  have k4 : Leads ⟨c, -4, some s⟩ ⟨c, -3, some s⟩ := pass_some c (-4) s (by omega) (fun h => absurd (w4.symm.trans h) (by decide))
  have k3 : Leads ⟨c, -3, some s⟩ ⟨c, -2, some s⟩ := pass_some c (-3) s (by omega) (fun h => absurd (w3.symm.trans h) (by decide))
  have k2 : Leads ⟨c, -2, some s⟩ ⟨c, -1, some s⟩ := pass_some c (-2) s (by omega) (fun h => absurd (w2.symm.trans h) (by decide))
  have k1 : Leads ⟨c, -1, some s⟩ ⟨c, 0, some s⟩ := pass_some c (-1) s (by omega) (fun h => absurd (w1.symm.trans h) (by decide))
  exact k5.trans (k4.trans (k3.trans (k2.trans k1)))

/-! ### Passes with a match -/

theorem bound_pos (p r : List Char) : bound (p ++ r).length (p.length : Int) = p.length := by
  unfold bound
  rw [if_neg (by omega)]
  simp

theorem bound_neg (p t : List Char) (h : t ≠ []) : bound (p ++ t).length (-(t.length : Int)) = p.length := by
  have := List.length_pos_iff.2 h
  unfold bound
  rw [if_pos (by omega), List.length_append]
  omega

/-- A line comment at a position that is not negative. -/
theorem pass_line (p q r : List Char) (h : '\n' ∉ q) :
    Leads ⟨p ++ ("//".toList ++ q ++ '\n' :: r), p.length, none⟩ ⟨p ++ '\n' :: r, (p.length : Int) - (q.length + 2) + 1, none⟩ := by
  have hw := window_pos p ("//".toList ++ q ++ '\n' :: r)
  have hf : findNl (p ++ ("//".toList ++ q ++ '\n' :: r)) p.length = ((p.length + (q.length + 2) : Nat) : Int) := by
    rw [findNl, sliceFrom, bound_pos, List.drop_left]
    have : ("//".toList ++ q ++ '\n' :: r).findIdx? (· = '\n') = some (q.length + 2) := by
      rw [List.findIdx?_append]
      have : ("//".toList ++ q).findIdx? (· = '\n') = none := by
        rw [List.findIdx?_eq_none_iff]
        intro x hx
        rcases List.mem_append.1 hx with hx | hx
        · have : ∀ x ∈ "//".toList, decide (x = '\n') = false := by decide
          exact this x hx
        · simp only [decide_eq_false_iff_not]
          rintro rfl
          exact h hx
      rw [this, List.findIdx?_cons]
      simp
    rw [this]
  have hs := Leads.step ⟨p ++ ("//".toList ++ q ++ '\n' :: r), p.length, none⟩ (by
    simp only [List.length_append, List.length_cons]
    have : "//".toList.length = 2 := rfl
    rw [this]
    push_cast
    omega)
  simp only [Clean.step] at hs
  have ht : List.take 2 ("//".toList ++ q ++ '\n' :: r) = ['/', '/'] := rfl
  rw [hw, if_pos ht, hf, sliceTo, bound_pos, List.take_left] at hs
  have e : p ++ ("//".toList ++ q ++ '\n' :: r) = (p ++ ("//".toList ++ q)) ++ '\n' :: r := by rw [← List.append_assoc]
  have hd : sliceFrom (p ++ ("//".toList ++ q ++ '\n' :: r)) ((p.length + (q.length + 2) : Nat) : Int) = '\n' :: r := by
    have hl : p.length + (q.length + 2) = (p ++ ("//".toList ++ q)).length := by
      simp only [List.length_append]
      have : "//".toList.length = 2 := rfl
      omega
    rw [e, hl, sliceFrom, bound_pos, List.drop_left]
  rw [hd] at hs
  convert hs using 2
  push_cast
  ring

/-! ### The cycle -/

/-- The text of which `m` line breaks have been collected at the beginning; the loop is at the sixth character from the end. -/
def endlessAt (m : Nat) : St :=
  ⟨List.replicate m '\n' ++ "//*aa*\n//a*/".toList ++ List.replicate (m + 2) 'a' ++ "/\n//*aa*\n//a*/aa".toList ++ "/*a\n**".toList, -6, none⟩

/-- Two more line breaks, and the text is two characters longer in the middle as well. -/
theorem endlessAt_leads (m : Nat) (hm : 5 ≤ m) : ∃ k, 0 < k ∧ runs k (endlessAt m) = some (endlessAt (m + 2)) := by
  have key : Leads (endlessAt m) (endlessAt (m + 2)) := by
    generalize hN : List.replicate m '\n' = N
    have hNl : N.length = m := by rw [← hN, List.length_replicate]
    generalize hA : List.replicate (m + 2) 'a' = A
    have hAl : A.length = m + 2 := by rw [← hA, List.length_replicate]
    -- the block comment at the end is opened
    let c0 := N ++ "//*aa*\n//a*/".toList ++ A ++ "/\n//*aa*\n//a*/aa".toList ++ "/*a\n**".toList
    have s1 : Leads ⟨c0, -6, none⟩ ⟨c0, -5, some (-6)⟩ := by
      have hw := window_neg (N ++ "//*aa*\n//a*/".toList ++ A ++ "/\n//*aa*\n//a*/aa".toList) "/*a\n**".toList 6 rfl (by decide)
      have := Leads.step ⟨c0, -6, none⟩ (by show (-6 : Int) < (c0.length : Int) - 1; omega)
      simp only [Clean.step] at this
      have h1 : slice c0 (-6) (-6 + 2) = ['/', '*'] := hw
      rw [h1, if_neg (by decide), if_pos rfl] at this
      exact this
    have s2 : Leads ⟨c0, -5, some (-6)⟩ ⟨c0, 0, some (-6)⟩ := by
      have e : c0 = (N ++ "//*aa*\n//a*/".toList ++ A ++ "/\n//*aa*\n//a*/aa/".toList) ++ "*a\n**".toList := by
        show _ ++ _ = _
        simp only [List.append_assoc]
        rfl
      rw [e]
      exact scan_tail_some _ _
    have s3 : Leads ⟨c0, 0, some (-6)⟩ ⟨c0, (m + 10 : Nat), some (-6)⟩ := by
      have e : c0 = [] ++ (N ++ "//*aa*\n//a".toList) ++ '*' :: ('/' :: (A ++ "/\n//*aa*\n//a*/aa".toList ++ "/*a\n**".toList)) := by
        show _ ++ _ = _
        simp only [List.append_assoc, List.nil_append]
        rfl
      have hno : ¬ ['*', '/'] <:+: N ++ "//*aa*\n//a".toList ++ ['*'] := by
        rw [← hN]
        clear * -
        induction m with
        | zero => decide
        | succ m ih =>
          rw [List.replicate_succ, List.cons_append, List.cons_append, List.infix_cons_iff]
          rintro (h | h)
          · rw [List.cons_prefix_cons] at h
            exact absurd h.1 (by decide)
          · exact ih h
      have h := scan_comment [] (N ++ "//*aa*\n//a".toList) '*' ('/' :: (A ++ "/\n//*aa*\n//a*/aa".toList ++ "/*a\n**".toList)) (-6) hno
      rw [← e] at h
      have hl : (N ++ "//*aa*\n//a".toList).length = m + 10 := by rw [List.length_append, hNl]; rfl
      rw [hl] at h
      simpa using h
    -- it is closed in the middle, which doubles the text behind
    let c1 := N ++ "//*aa*\n//a*/".toList ++ A ++ "/\n//*aa*\n//a*/aa".toList ++ (A ++ "/\n//*aa*\n//a*/aa".toList ++ "/*a\n**".toList)
    have s4 : Leads ⟨c0, (m + 10 : Nat), some (-6)⟩ ⟨c1, -5, none⟩ := by
      have e : c0 = (N ++ "//*aa*\n//a".toList) ++ "*/".toList ++ (A ++ "/\n//*aa*\n//a*/aa".toList ++ "/*a\n**".toList) := by
        show _ ++ _ = _
        simp only [List.append_assoc]
        rfl
      have hl : (N ++ "//*aa*\n//a".toList).length = m + 10 := by rw [List.length_append, hNl]; rfl
      have hl2 : (N ++ "//*aa*\n//a".toList ++ "*/".toList).length = m + 12 := by rw [List.length_append, hl]; rfl
      have hc : c0.length = m + 12 + (m + 2) + 16 + 6 := by
        show (N ++ _ ++ A ++ _ ++ _).length = _
        simp only [List.length_append, hNl, hAl]
        rfl
      have h := Leads.step ⟨c0, (m + 10 : Nat), some (-6)⟩ (by show ((m + 10 : Nat) : Int) < (c0.length : Int) - 1; omega)
      simp only [Clean.step] at h
      have hw : slice c0 (m + 10 : Nat) ((m + 10 : Nat) + 2) = ['*', '/'] := by
        have := window_pos (N ++ "//*aa*\n//a".toList) ("*/".toList ++ (A ++ "/\n//*aa*\n//a*/aa".toList ++ "/*a\n**".toList))
        rw [← List.append_assoc, ← e, hl] at this
        rw [this]
        rfl
      have h1 : sliceTo c0 (-6) = N ++ "//*aa*\n//a*/".toList ++ A ++ "/\n//*aa*\n//a*/aa".toList := by
        have := bound_neg (N ++ "//*aa*\n//a*/".toList ++ A ++ "/\n//*aa*\n//a*/aa".toList) "/*a\n**".toList (by decide)
        have hb : bound c0.length (-6) = (N ++ "//*aa*\n//a*/".toList ++ A ++ "/\n//*aa*\n//a*/aa".toList).length := this
        rw [sliceTo, hb]
        exact List.take_left
      have h2 : slice c0 (-6) (m + 10 : Nat) = [] := by
        have hb1 : bound c0.length (-6) = m + 12 + (m + 2) + 16 := by
          unfold bound
          rw [if_pos (by omega), hc]
          omega
        have hb2 : bound c0.length (m + 10 : Nat) = m + 10 := by
          unfold bound
          rw [if_neg (by omega), hc]
          omega
        rw [slice, hb1, hb2, List.drop_eq_nil_iff, List.length_take]
        omega
      have h3 : sliceFrom c0 ((m + 10 : Nat) + 2) = A ++ "/\n//*aa*\n//a*/aa".toList ++ "/*a\n**".toList := by
        have := bound_pos (N ++ "//*aa*\n//a".toList ++ "*/".toList) (A ++ "/\n//*aa*\n//a*/aa".toList ++ "/*a\n**".toList)
        rw [← e, hl2] at this
        have hb : bound c0.length ((m + 10 : Nat) + 2) = m + 12 := by rw [← this]; congr 1
        rw [sliceFrom, hb, ← hl2, e, List.drop_left]
      rw [hw, if_pos rfl, h1, h2, h3, List.count_nil, List.replicate_zero, List.append_nil] at h
      have hi : ((m + 10 : Nat) : Int) - ((m + 10 : Nat) - -6) + 1 = -5 := by ring
      rw [hi] at h
      exact h
    have s5 : Leads ⟨c1, -5, none⟩ ⟨c1, 0, none⟩ := by
      have e : c1 = (N ++ "//*aa*\n//a*/".toList ++ A ++ "/\n//*aa*\n//a*/aa".toList ++ (A ++ "/\n//*aa*\n//a*/aa/".toList)) ++ "*a\n**".toList := by
        show _ ++ _ = _
        simp only [List.append_assoc]
        rfl
      rw [e]
      exact scan_tail_none _
    -- the first line comment
    let r1 := "//a*/".toList ++ A ++ "/\n//*aa*\n//a*/aa".toList ++ (A ++ "/\n//*aa*\n//a*/aa".toList ++ "/*a\n**".toList)
    have e1 : c1 = N ++ ("//".toList ++ "*aa*".toList ++ '\n' :: r1) := by
      show _ ++ _ = _
      simp only [r1, List.append_assoc]
      rfl
    have s6 : Leads ⟨c1, 0, none⟩ ⟨c1, (m : Nat), none⟩ := by
      have h := scan_newlines [] m '/' ("/".toList ++ "*aa*".toList ++ '\n' :: r1)
      have e : c1 = [] ++ List.replicate m '\n' ++ '/' :: ("/".toList ++ "*aa*".toList ++ '\n' :: r1) := by rw [e1, hN]; rfl
      rw [← e] at h
      simpa using h
    have s7 : Leads ⟨c1, (m : Nat), none⟩ ⟨N ++ '\n' :: r1, ((m - 5 : Nat) : Int), none⟩ := by
      have h := pass_line N "*aa*".toList r1 (by decide)
      rw [← e1, hNl] at h
      have hi : (m : Int) - (("*aa*".toList.length : Nat) + 2) + 1 = ((m - 5 : Nat) : Int) := by
        have : "*aa*".toList.length = 4 := rfl
        rw [this]
        omega
      rw [hi] at h
      exact h
    -- the second one
    let r2 := "//*aa*\n//a*/aa".toList ++ (A ++ "/\n//*aa*\n//a*/aa".toList ++ "/*a\n**".toList)
    have e2 : N ++ '\n' :: r1 = (N ++ ['\n']) ++ ("//".toList ++ ("a*/".toList ++ A ++ "/".toList) ++ '\n' :: r2) := by
      show _ ++ '\n' :: (_ ++ _) = _
      simp only [r2, List.append_assoc, List.cons_append, List.nil_append]
      rfl
    have s8 : Leads ⟨N ++ '\n' :: r1, ((m - 5 : Nat) : Int), none⟩ ⟨N ++ '\n' :: r1, ((m + 1 : Nat) : Int), none⟩ := by
      have e : N ++ '\n' :: r1 = List.replicate (m - 5) '\n' ++ List.replicate 6 '\n' ++ '/' :: ("/".toList ++ ("a*/".toList ++ A ++ "/".toList) ++ '\n' :: r2) := by
        rw [e2, ← hN, ← List.replicate_succ', ← List.replicate_add]
        have : m - 5 + 6 = m + 1 := by omega
        rw [this]
        rfl
      have h := scan_newlines (List.replicate (m - 5) '\n') 6 '/' ("/".toList ++ ("a*/".toList ++ A ++ "/".toList) ++ '\n' :: r2)
      rw [← e, List.length_replicate] at h
      have hi : ((m - 5 : Nat) : Int) + (6 : Nat) = ((m + 1 : Nat) : Int) := by omega
      rw [hi] at h
      exact h
    have s9 : Leads ⟨N ++ '\n' :: r1, ((m + 1 : Nat) : Int), none⟩ ⟨(N ++ ['\n']) ++ '\n' :: r2, -6, none⟩ := by
      have h := pass_line (N ++ ['\n']) ("a*/".toList ++ A ++ "/".toList) r2 (by
        rw [← hA]
        intro h
        rcases List.mem_append.1 h with h | h
        · rcases List.mem_append.1 h with h | h
          · exact absurd h (by decide)
          · exact absurd (List.eq_of_mem_replicate h) (by decide)
        · exact absurd h (by decide))
      rw [← e2] at h
      have hl : (N ++ ['\n']).length = m + 1 := by rw [List.length_append, hNl]; rfl
      have hl2 : ("a*/".toList ++ A ++ "/".toList).length = m + 6 := by
        rw [List.length_append, List.length_append, hAl]
        have h3 : "a*/".toList.length = 3 := rfl
        have h1 : "/".toList.length = 1 := rfl
        omega
      rw [hl, hl2] at h
      have hi : ((m + 1 : Nat) : Int) - (((m + 6 : Nat) : Int) + 2) + 1 = -6 := by push_cast; ring
      rw [hi] at h
      exact h
    have e3 : (N ++ ['\n']) ++ '\n' :: r2 = (endlessAt (m + 2)).code := by
      have hA' : List.replicate (m + 2 + 2) 'a' = 'a' :: 'a' :: A := by rw [← hA]; rfl
      have hN' : List.replicate (m + 2) '\n' = N ++ ['\n', '\n'] := by rw [← hN, List.replicate_add]; rfl
      show _ = List.replicate (m + 2) '\n' ++ _ ++ List.replicate (m + 2 + 2) 'a' ++ _ ++ _
      rw [hA', hN']
      show _ ++ '\n' :: (_ ++ _) = _
      simp only [List.append_assoc, List.cons_append, List.nil_append]
      rfl
    have s10 : (⟨(N ++ ['\n']) ++ '\n' :: r2, -6, none⟩ : St) = endlessAt (m + 2) := by rw [e3]; rfl
    have hs : endlessAt m = ⟨c0, -6, none⟩ := by
      show (⟨_, _, _⟩ : St) = ⟨N ++ _ ++ A ++ _ ++ _, _, _⟩
      rw [← hN, ← hA]
    rw [hs, ← s10]
    exact s1.trans (s2.trans (s3.trans (s4.trans (s5.trans (s6.trans (s7.trans (s8.trans s9)))))))
  obtain ⟨k, hk⟩ := key
  refine ⟨k, ?_, hk⟩
  rcases Nat.eq_zero_or_pos k with rfl | h
  · simp only [runs, Option.some.injEq] at hk
    have := congrArg (fun s : St => s.code.length) hk
    simp only [endlessAt, List.length_append, List.length_replicate] at this
    omega
  · exact h

end Verif.Clean
