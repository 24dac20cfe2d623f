import Verif.Model.UnitText
import Verif.Lemmas.Text

/-! Lemmas about numbers in text. -/

namespace Verif.Units

open Verif.Text

theorem natOf_map (ds : List Nat) (h : ∀ d ∈ ds, d < 10) :
    natOf (ds.map digitChar) = ds.foldl (fun a d => 10 * a + d) 0 := by
  unfold natOf
  generalize 0 = acc
  induction ds generalizing acc with
  | nil => rfl
  | cons d ds ih =>
    have hd := h d (by simp)
    simp only [List.map_cons, List.foldl_cons, digitChar_toNat d hd]
    rw [show 10 * acc + (48 + d - 48) = 10 * acc + d by omega]
    exact ih (fun x hx => h x (by simp [hx])) _

theorem natOf_showNat (n : Nat) : natOf (showNat n) = n := by
  unfold showNat
  split
  · subst_vars; decide
  · rw [natOf_map _ (fun d hd => Nat.digits_lt_base (by norm_num) (List.mem_reverse.mp hd)), foldl_reverse_digits,
      Nat.ofDigits_digits]

theorem takeWhile_digits (ds rest : List Char) (h : ∀ c ∈ ds, isDigit c = true)
    (hr : ∀ c, rest.head? = some c → isDigit c = false) :
    (ds ++ rest).takeWhile isDigit = ds ∧ (ds ++ rest).dropWhile isDigit = rest := by
  constructor
  · rw [List.takeWhile_append_of_pos (fun c hc => h c hc)]
    cases rest with
    | nil => simp
    | cons c cs => simp [hr c rfl]
  · rw [List.dropWhile_append_of_pos (fun c hc => h c hc)]
    cases rest with
    | nil => simp
    | cons c cs => simp [hr c rfl]

end Verif.Units
