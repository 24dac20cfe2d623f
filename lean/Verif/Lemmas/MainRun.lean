import Verif.Model.MainRun
import Verif.Props.CodeGen

/-!
Lemmas for C105.
-/

namespace Verif.MainRun

open Verif.Text

/-! ### `atoi` of the argument -/

theorem number_stop (s r : List Char) (n : Nat) (h : ∀ c ∈ s, isDigit c = true) (hr : ∀ c ∈ r.head?, isDigit c = false) :
    CLib.number n (s ++ r) = CLib.number n s := by
  induction s generalizing n with
  | nil =>
    cases r with
    | nil => rfl
    | cons c r =>
      have hc : ¬ (48 ≤ c.toNat ∧ c.toNat ≤ 57) := by
        have := hr c rfl
        intro hh
        rw [isDigit, decide_eq_true hh.1, decide_eq_true hh.2] at this
        cases this
      simp [CLib.number, hc]
  | cons c s ih =>
    have hc : 48 ≤ c.toNat ∧ c.toNat ≤ 57 := by simpa [isDigit] using h c (by simp)
    rw [List.cons_append, CLib.number, if_pos hc, CLib.number, if_pos hc]
    exact ih _ fun x hx => h x (by simp [hx])

theorem signed_nat (n : Nat) (r : List Char) (hr : ∀ c ∈ r.head?, isDigit c = false) :
    CLib.signed (showInt (n : Int) ++ r) = n := by
  have h0 := CodeGen.signed_showInt (n : Int)
  have hs : showInt (n : Int) = showNat n := by simp [showInt]
  rw [hs] at h0 ⊢
  obtain ⟨c, t, hct⟩ := List.exists_cons_of_ne_nil (showNat_ne_nil n)
  have hd := showNat_digits n
  rw [hct] at hd h0 ⊢
  have hc : c ≠ '-' := by
    rintro rfl
    exact absurd (hd '-' (by simp)) (by decide)
  have e1 : ∀ u : List Char, CLib.signed (c :: u) = (CLib.number 0 (c :: u) : Int) := by
    intro u
    unfold CLib.signed
    split
    · rename_i h; simp only [List.cons.injEq] at h; exact absurd h.1 hc
    · rfl
  rw [List.cons_append, e1, ← List.cons_append, number_stop _ _ _ hd hr, ← e1]
  exact h0

theorem atoi_rep (t : ℚ) (n : Nat) (h : n < 2 ^ 31) : CLib.atoi (repText t n) = n := by
  unfold CLib.atoi CLib.wrap repText
  split
  · rw [signed_nat n ['.', '0'] (by decide)]; omega
  · have := signed_nat n [] (by simp)
    rw [List.append_nil] at this
    rw [this]; omega

/-! ### Execution -/

theorem exec_mono (arg : List Char) (k : Nat) (cs : List Cmd) (env : Env) (r : Env × List Event) (h : exec arg k cs env = some r) (m : Nat)
    (hm : k ≤ m) : exec arg m cs env = some r := by
  induction k generalizing cs env r m with
  | zero => simp [exec] at h
  | succ k ih =>
    obtain ⟨m, rfl⟩ : ∃ j, m = j + 1 := ⟨m - 1, by omega⟩
    have hkm : k ≤ m := by omega
    cases cs with
    | nil => simpa [exec] using h
    | cons c cs =>
      cases c with
      | call e =>
        rw [exec] at h ⊢
        obtain ⟨r', h1, rfl⟩ := Option.map_eq_some_iff.1 h
        rw [ih _ _ _ h1 m hkm]; rfl
      | set x v =>
        rw [exec] at h ⊢
        exact ih _ _ _ h m hkm
      | ite c body =>
        rw [exec] at h ⊢
        split at h <;> rename_i hc <;> simp only [hc] <;> exact ih _ _ _ h m hkm
      | loop c x body =>
        rw [exec] at h ⊢
        split at h
        · rename_i hc
          rw [if_pos hc]
          cases hb : exec arg k body env with
          | none => rw [hb] at h; simp at h
          | some q =>
            obtain ⟨env', t⟩ := q
            rw [hb] at h
            simp only at h
            rw [ih _ _ _ hb m hkm]
            obtain ⟨r', h1, rfl⟩ := Option.map_eq_some_iff.1 h
            simp only [ih _ _ _ h1 m hkm]
            rfl
        · rename_i hc
          rw [if_neg hc]
          exact ih _ _ _ h m hkm

/-- The inner loop runs as often as the variable says. -/
theorem exec_inner (arg : List Char) (n : Nat) (env : Env) (he : env .repeat = n) (cs : List Cmd) (k : Nat) (r : Env × List Event)
    (h : exec arg k cs (env.put .repeat 0) = some r) :
    ∃ j, exec arg j (.loop (.gt .repeat 0) .repeat [.call .kernel, .call .dummy] :: cs) env =
      some (r.1, (List.replicate n [Event.kernel, .dummy]).flatten ++ r.2) := by
  induction n generalizing env with
  | zero =>
    refine ⟨k + 1, ?_⟩
    have hput : env.put .repeat 0 = env := by
      funext y
      rw [Env.put]
      split
      · rename_i hy; subst hy; simpa using he.symm
      · rfl
    rw [exec, if_neg (by simp [Cond.holds, he])]
    rw [hput] at h
    simp [h]
  | succ n ih =>
    have hp : (env.put .repeat (env .repeat - 1)).put .repeat 0 = env.put .repeat 0 := by
      funext y
      simp only [Env.put]
      split <;> rfl
    obtain ⟨j, hj⟩ := ih (env.put .repeat (env .repeat - 1)) (by simp [Env.put, he]) (by rw [hp]; exact h)
    refine ⟨max j 3 + 1, ?_⟩
    have hb : exec arg (max j 3) [.call .kernel, .call .dummy] env = some (env, [.kernel, .dummy]) :=
      exec_mono arg 3 _ _ _ rfl _ (by omega)
    rw [exec, if_pos (by simp [Cond.holds, he]), hb]
    simp only
    rw [exec_mono arg j _ _ _ hj _ (by omega)]
    simp [List.replicate_succ]

/-- What the program does for a given value of `atoi(argv[1])`. -/
theorem exec_main (arg : List Char) (env : Env) :
    ∃ k env', ∀ m, k ≤ m → exec arg m template env = some (env', [.markerInit, .register, .initArrays, .dummy] ++
      (List.replicate 2 [Event.kernel, .dummy]).flatten ++
      .start :: ((List.replicate (CLib.atoi arg).toNat [Event.kernel, .dummy]).flatten ++ [.stop, .close])) := by
  -- the second pass
  set e1 : Env := (((env.put .warmup 1).put .repeat 2).put .repeat 0).put .warmup 0 with he1
  set e2 : Env := (e1.put .repeat 2).put .repeat (CLib.atoi arg) with he2
  have hloop : ∃ k, exec arg k [.loop (.gt .repeat 0) .repeat [.call .kernel, .call .dummy]] e2 =
      some (e2.put .repeat (if 0 < CLib.atoi arg then 0 else CLib.atoi arg),
        (List.replicate (CLib.atoi arg).toNat [Event.kernel, .dummy]).flatten) := by
    by_cases h : 0 < CLib.atoi arg
    · obtain ⟨k, hk⟩ := exec_inner arg (CLib.atoi arg).toNat e2 (by simp [he2, Env.put]; omega) [] 1 (e2.put .repeat 0, []) rfl
      exact ⟨k, by simpa [h] using hk⟩
    · refine ⟨2, ?_⟩
      rw [exec, if_neg (by simpa [Cond.holds, he2, Env.put] using h), if_neg h, exec]
      have : (CLib.atoi arg).toNat = 0 := by omega
      rw [this]
      congr 2
      funext y
      simp only [he2, Env.put]
      split <;> rfl
  obtain ⟨k2, hk2⟩ := hloop
  obtain ⟨k1, hk1⟩ := exec_inner arg 2 ((env.put .warmup 1).put .repeat 2) rfl [] 1 (_, []) rfl
  set e3 : Env := e2.put .repeat (if 0 < CLib.atoi arg then 0 else CLib.atoi arg) with he3
  set e4 : Env := e3.put .warmup (e3 .warmup - 1) with he4
  refine ⟨k1 + k2 + 20, e4, fun m hm => exec_mono arg (k1 + k2 + 20) _ _ _ ?_ m hm⟩
  have hbody1 : exec arg (k1 + k2 + 14) [.set .repeat (.lit 2), .ite (.eq .warmup 0) [.set .repeat .arg, .call .start],
      .loop (.gt .repeat 0) .repeat [.call .kernel, .call .dummy]] (env.put .warmup 1) =
      some (((env.put .warmup 1).put .repeat 2).put .repeat 0, (List.replicate 2 [Event.kernel, .dummy]).flatten) := by
    rw [exec, Val.eval, exec, if_neg (by simp [Cond.holds, Env.put])]
    simpa using exec_mono arg k1 _ _ _ hk1 (k1 + k2 + 12) (by omega)
  have hbody2 : exec arg (k1 + k2 + 13) [.set .repeat (.lit 2), .ite (.eq .warmup 0) [.set .repeat .arg, .call .start],
      .loop (.gt .repeat 0) .repeat [.call .kernel, .call .dummy]] e1 =
      some (e3, .start :: (List.replicate (CLib.atoi arg).toNat [Event.kernel, .dummy]).flatten) := by
    rw [exec, Val.eval, exec, if_pos (by simp [Cond.holds, Env.put, he1])]
    simp only [List.cons_append, List.nil_append]
    rw [exec, Val.eval, exec, exec_mono arg k2 _ _ _ hk2 _ (by omega)]
    rfl
  have hend : ∀ e : Env, exec arg (k1 + k2 + 12) [.call .stop, .call .close] e = some (e, [.stop, .close]) := fun e =>
    exec_mono arg 3 _ _ _ rfl _ (by omega)
  rw [template, exec, exec, exec, exec, exec, Val.eval, exec, if_pos (by simp [Cond.holds, Env.put]), hbody1]
  simp only
  have hw : (((env.put .warmup 1).put .repeat 2).put .repeat 0).put .warmup
      ((((env.put .warmup 1).put .repeat 2).put .repeat 0) .warmup - 1) = e1 := by
    rw [he1]; congr 1
  rw [hw, exec, if_pos (by simp [Cond.holds, Env.put, he1]), hbody2]
  simp only
  rw [← he4, exec, if_neg (by simp [Cond.holds, Env.put, he4, he3, he2, he1]), hend]
  simp

end Verif.MainRun
