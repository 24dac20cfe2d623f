import Verif.Model.Guard
import Verif.Spec.Guard
import Verif.Lemmas.PerfOut
import Mathlib.Tactic.Linarith
import Mathlib.Tactic.NormNum
import Mathlib.Algebra.Order.Field.Rat
import Mathlib.Algebra.Order.Group.Abs

/-!
Lemmas on the conditions for benchmarks.
-/

namespace Verif.Guard

open Verif.PerfOut Verif.PerfSpec Verif.PhenoArgs

theorem replace_unit (t : List Char) (h : ' ' ∉ t) : PerfMetric.replace " GHz".toList [] 0 (t ++ " GHz".toList) = t := by
  induction t with
  | nil => decide
  | cons c t ih =>
    rw [List.mem_cons, not_or] at h
    rw [List.cons_append, PerfMetric.replace, if_neg, ih h.2]
    show ¬ List.isPrefixOf (' ' :: "GHz".toList) _ = true
    rw [List.isPrefixOf, Bool.and_eq_true, not_and]
    intro hc
    exact absurd (eq_of_beq hc) h.1

theorem float_blank {x : ℚ} {t : List Char} (h : Float x t) : ' ' ∉ t := by
  intro hc
  rcases isDec_chars (isDec_of h) ' ' hc with h | h | h | h | h | h <;> revert h <;> decide

theorem deviates_iff (x expected : ℚ) : deviates (.fin x) expected = true ↔ ¬ ClockFits x expected := by
  simp only [deviates, decide_eq_true_eq, ClockFits, not_and_or, not_le, lt_abs]
  constructor
  · rintro (h | h)
    · right; norm_num; linarith
    · left; norm_num; linarith
  · rintro (h | h)
    · right; norm_num at h; linarith
    · left; norm_num at h; linarith

theorem checkClock_text {x : ℚ} {t : List Char} (h : Float x t) (expected : ℚ) (ignore : Bool) :
    (ClockFits x expected ∨ ignore = true → checkClock (.text (t ++ " GHz".toList)) expected ignore = .ok ()) ∧
    (¬ ClockFits x expected → ignore = false → checkClock (.text (t ++ " GHz".toList)) expected ignore = .error "SystemExit") := by
  simp only [checkClock, replace_unit t (float_blank h), pyFloat_of h]
  constructor
  · intro hc
    rw [if_neg]
    rw [Bool.and_eq_true, deviates_iff, not_and_or]
    rcases hc with hc | hc
    · left; exact not_not.2 hc
    · right; simp [hc]
  · intro hc hi
    rw [if_pos]
    rw [Bool.and_eq_true, deviates_iff]
    exact ⟨hc, by simp [hi]⟩

end Verif.Guard
