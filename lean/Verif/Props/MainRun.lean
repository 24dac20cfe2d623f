import Verif.Lemmas.MainRun

/-!
C105: the main program of the benchmark.
-/

namespace Verif.MainRun

open Verif.Text

/-- Events between the start and the stop of the measurement, which are in the program once. -/
def Measures (t b : List Event) : Prop :=
  ∃ a c, t = a ++ .start :: b ++ .stop :: c ∧ ∀ l ∈ [a, b, c], Event.start ∉ l ∧ Event.stop ∉ l

/-- C105: with fewer than 2^31 repetitions, the measurement contains exactly this number of calls of the kernel, each with a call of the
dummy behind it; before, the arrays are initialised and the kernel is called two times. -/
theorem C105_repetitions_partial (timePer : ℚ) (repetitions : Nat) (h : repetitions < 2 ^ 31) (env : Env) :
    ∃ k env' t, (∀ m, k ≤ m → exec (repText timePer repetitions) m template env = some (env', t)) ∧
      Measures t (List.replicate repetitions [Event.kernel, .dummy]).flatten ∧
      ∃ a c, t = a ++ .start :: c ∧ a.count .kernel = 2 ∧ a.count .initArrays = 1 ∧
        (a.takeWhile (· ≠ .initArrays)).count .kernel = 0 := by
  obtain ⟨k, env', hk⟩ := exec_main (repText timePer repetitions) env
  rw [atoi_rep timePer repetitions h, Int.toNat_natCast] at hk
  refine ⟨k, env', _, hk, ⟨[.markerInit, .register, .initArrays, .dummy] ++ (List.replicate 2 [Event.kernel, .dummy]).flatten, [.close],
    by simp, ?_⟩, _, _, rfl, by decide, by decide, by decide⟩
  intro l hl
  simp only [List.mem_cons, List.not_mem_nil, or_false] at hl
  rcases hl with rfl | rfl | rfl
  · decide
  · constructor <;> · intro hm
                      obtain ⟨x, hx, hs⟩ := List.mem_flatten.1 hm
                      rw [List.eq_of_mem_replicate hx] at hs
                      simp at hs
  · decide

example : ∃ k env' t, (∀ m, k ≤ m → exec "1000.0".toList m template (fun _ => 0) = some (env', t)) ∧
    Measures t (List.replicate 1000 [Event.kernel, .dummy]).flatten := by
  obtain ⟨k, env', t, h1, h2, -⟩ := C105_repetitions_partial (1 / 500) 1000 (by norm_num) (fun _ => 0)
  have he : repText (1 / 500) (1000 : Nat) = "1000.0".toList := by decide +kernel
  rw [he] at h1
  exact ⟨k, env', t, h1, h2⟩

/-- The measured part of a program is unique. -/
theorem Measures.unique {t b b' : List Event} (h : Measures t b) (h' : Measures t b') : b = b' := by
  have key : ∀ b, Measures t b → b = ((t.dropWhile (· ≠ .start)).tail.takeWhile (· ≠ .stop)) := by
    rintro b ⟨a, c, rfl, hn⟩
    have ha := (hn a (by simp)).1
    have hb := (hn b (by simp)).2
    rw [List.append_assoc, List.dropWhile_append_of_pos (by intro x hx; simp; rintro rfl; exact ha hx), List.cons_append,
      List.dropWhile_cons_of_neg (by simp), List.tail_cons,
      List.takeWhile_append_of_pos (by intro x hx; simp; rintro rfl; exact hb hx), List.takeWhile_cons_of_neg (by simp), List.append_nil]
  rw [key b h, key b' h']

/-- C105: the exact condition. The program calls the kernel as often as it was told if and only if the number is smaller than 2^31. -/
theorem C105_iff (timePer : ℚ) (repetitions : Nat) (env : Env) :
    (∃ k env' t, (∀ m, k ≤ m → exec (repText timePer repetitions) m template env = some (env', t)) ∧
      Measures t (List.replicate repetitions [Event.kernel, .dummy]).flatten) ↔ repetitions < 2 ^ 31 := by
  constructor
  · rintro ⟨k, env', t, h, hm⟩
    obtain ⟨k2, env2, hk⟩ := exec_main (repText timePer repetitions) env
    have e := h (max k k2) (le_max_left _ _)
    rw [hk (max k k2) (le_max_right _ _), Option.some.injEq, Prod.mk.injEq] at e
    obtain ⟨-, rfl⟩ := e
    have hu := hm.unique (b' := (List.replicate (CLib.atoi (repText timePer repetitions)).toNat [Event.kernel, .dummy]).flatten)
      ⟨[.markerInit, .register, .initArrays, .dummy] ++ (List.replicate 2 [Event.kernel, .dummy]).flatten, [.close], by simp, by
        intro l hl
        simp only [List.mem_cons, List.not_mem_nil, or_false] at hl
        rcases hl with rfl | rfl | rfl
        · decide
        · constructor <;> · intro hm
                            obtain ⟨x, hx, hs⟩ := List.mem_flatten.1 hm
                            rw [List.eq_of_mem_replicate hx] at hs
                            simp at hs
        · decide⟩
    have hl := congrArg List.length hu
    have hlen : ∀ n, ((List.replicate n [Event.kernel, .dummy]).flatten).length = 2 * n := by
      intro n
      induction n with
      | zero => rfl
      | succ n ih => rw [List.replicate_succ, List.flatten_cons, List.length_append, ih]; simp; omega
    rw [hlen, hlen] at hl
    have hw : CLib.atoi (repText timePer repetitions) < 2 ^ 31 := by
      unfold CLib.atoi CLib.wrap
      omega
    omega
  · intro h
    obtain ⟨k, env', t, h1, h2, -⟩ := C105_repetitions_partial timePer repetitions h env
    exact ⟨k, env', t, h1, h2⟩

/-- After 5·10^9 repetitions were chosen, another number of calls is measured. -/
example : ¬ ∃ k env' t, (∀ m, k ≤ m → exec (repText (1 / 2 ^ 30) (5000000000 : Nat)) m template (fun _ => 0) = some (env', t)) ∧
    Measures t (List.replicate 5000000000 [Event.kernel, .dummy]).flatten :=
  fun h => absurd ((C105_iff _ _ _).1 h) (by norm_num)

/-- 2^31 repetitions are negative for the program, so the measured part is empty. -/
theorem C105_negation_overflow (env : Env) :
    ∃ k env' t, (∀ m, k ≤ m → exec (repText (1 / 2 ^ 30) (2 ^ 31)) m template env = some (env', t)) ∧ Measures t [] := by
  obtain ⟨k, env', hk⟩ := exec_main (repText (1 / 2 ^ 30) (2 ^ 31)) env
  have h : (CLib.atoi (repText (1 / 2 ^ 30) (2 ^ 31))).toNat = 0 := by decide +kernel
  rw [h] at hk
  exact ⟨k, env', _, hk, [.markerInit, .register, .initArrays, .dummy] ++ (List.replicate 2 [Event.kernel, .dummy]).flatten, [.close],
    by simp, by decide⟩

/-- This number of repetitions is chosen after a run with 2^-30 seconds per repetition. -/
example : Measure.nextRepetitions 10 (1 / 2 ^ 30) = 2 ^ 31 := by decide +kernel

end Verif.MainRun
