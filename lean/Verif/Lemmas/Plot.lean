import Verif.Model.Plot
import Mathlib.Tactic.Ring
import Mathlib.Tactic.Push
import Mathlib.Algebra.Order.Archimedean.Basic
import Mathlib.Data.Rat.Floor

/-! Lemmas for C164. -/

namespace Verif.Plot

theorem frange_some (stop step : ℚ) (hs : 0 < step) : ∀ (fuel : Nat) (f : ℚ) (l : List ℚ), frange fuel f stop step = some l →
    ∃ n : Nat, (∀ k : Nat, k < n ↔ f + k * step < stop) ∧ l = (List.range n).map fun (k : Nat) => f + (k + 1) * step := by
  intro fuel
  induction fuel with
  | zero => intro f l h; simp [frange] at h
  | succ fuel ih =>
    intro f l h
    unfold frange at h
    split at h
    · rename_i hf
      simp only [Option.map_eq_some_iff] at h
      obtain ⟨l', h1, rfl⟩ := h
      obtain ⟨n, hn, rfl⟩ := ih _ _ h1
      refine ⟨n + 1, ?_, ?_⟩
      · intro k
        cases k with
        | zero => simpa using hf
        | succ k =>
          rw [Nat.succ_lt_succ_iff, hn k]
          push_cast
          rw [show f + step + (k : ℚ) * step = f + ((k : ℚ) + 1) * step by ring]
      · rw [List.range_succ_eq_map]
        simp only [List.map_cons, List.map_map, List.cons.injEq]
        refine ⟨by push_cast; ring, ?_⟩
        apply List.map_congr_left
        intro k _
        simp only [Function.comp]
        push_cast
        ring
    · rename_i hf
      push Not at hf
      simp only [Option.some.injEq] at h
      subst h
      refine ⟨0, ?_, rfl⟩
      intro k
      have : (0 : ℚ) ≤ k * step := mul_nonneg (Nat.cast_nonneg k) hs.le
      simp only [Nat.not_lt_zero, false_iff, not_lt]
      linarith

theorem frange_ends (stop step : ℚ) : ∀ (n : Nat) (f : ℚ), stop ≤ f + n * step → ∃ fuel l, frange fuel f stop step = some l := by
  intro n
  induction n with
  | zero =>
    intro f h
    refine ⟨1, [], ?_⟩
    unfold frange
    rw [if_neg]
    push Not
    simpa using h
  | succ n ih =>
    intro f h
    by_cases hf : f < stop
    · obtain ⟨fuel, l, h1⟩ := ih (f + step) (by push_cast at h; linarith)
      refine ⟨fuel + 1, (f + step) :: l, ?_⟩
      unfold frange
      rw [if_pos hf, h1]
      rfl
    · exact ⟨1, [], by unfold frange; rw [if_neg hf]⟩

theorem frange_endless (stop step : ℚ) (hs : step ≤ 0) : ∀ (fuel : Nat) (f : ℚ), f < stop → frange fuel f stop step = none := by
  intro fuel
  induction fuel with
  | zero => intro f _; rfl
  | succ fuel ih =>
    intro f hf
    unfold frange
    rw [if_pos hf, ih (f + step) (by linarith)]
    rfl

end Verif.Plot
