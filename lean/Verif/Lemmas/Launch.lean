import Verif.Spec.Launch
import Verif.Model.Launch
import Verif.Lemmas.Text
import Verif.Lemmas.Cli
import Mathlib.Tactic.IntervalCases

/-!
Lemmas about the command line of `likwid-perfctr`.
-/

namespace Verif.Launch

open Verif.Text

theorem digitChar_mem (d : Nat) (h : d < 10) : digitChar d ∈ Numerals.digits ∧ Numerals.digits.idxOf (digitChar d) = d := by
  interval_cases d <;> decide

theorem value_append (l : List Char) (c : Char) : Numerals.value (l ++ [c]) = Numerals.value l * 10 + Numerals.digits.idxOf c := by
  induction l with
  | nil => simp [Numerals.value]
  | cons a l ih =>
    rw [List.cons_append, Numerals.value, ih, Numerals.value, List.length_append, List.length_singleton, pow_succ]
    ring

theorem value_digits (l : List Nat) (h : ∀ d ∈ l, d < 10) : Numerals.value (l.reverse.map digitChar) = Nat.ofDigits 10 l := by
  induction l with
  | nil => rfl
  | cons d l ih =>
    rw [List.reverse_cons, List.map_append, List.map_singleton, value_append, ih fun x hx => h x (by simp [hx]),
      (digitChar_mem d (h d (by simp))).2, Nat.ofDigits_cons]
    ring

theorem number_showNat (n : Nat) : number (showNat n) = some n := by
  have h : showNat n ≠ [] ∧ (∀ c ∈ showNat n, c ∈ Numerals.digits) ∧ Numerals.value (showNat n) = n := by
    refine ⟨showNat_ne_nil n, ?_, ?_⟩
    · intro c hc
      unfold showNat at hc
      split at hc
      · simp only [List.mem_singleton] at hc
        subst hc; decide
      · obtain ⟨d, hd, rfl⟩ := List.mem_map.mp hc
        exact (digitChar_mem d (Nat.digits_lt_base (by norm_num) (List.mem_reverse.mp hd))).1
    · unfold showNat
      split
      · rename_i h; subst h; decide
      · rw [value_digits _ fun d hd => Nat.digits_lt_base (by norm_num) hd, Nat.ofDigits_digits]
  rw [number, if_pos ⟨h.1, h.2.1⟩, h.2.2]

/-- The positions that are given for a number of cores. -/
theorem positions_cpu (cores : Int) : positions (cpu cores) = some (List.range (max 1 cores.toNat)) := by
  by_cases h : cores > 1
  · have h1 : cpu cores = "S0:".toList ++ '0' :: '-' :: showNat (cores - 1).toNat := by
      rw [cpu, if_pos h, showInt, if_neg (by omega), show (cores - 1).natAbs = (cores - 1).toNat by omega]
      rfl
    rw [positions, if_pos (by rw [h1]; exact List.prefix_append _ _), h1]
    have h2 : ("S0:".toList ++ '0' :: '-' :: showNat (cores - 1).toNat).drop 3 = '0' :: '-' :: showNat (cores - 1).toNat := rfl
    rw [h2]
    have h3 : ('0' :: '-' :: showNat (cores - 1).toNat).dropWhile (fun x => decide (x ≠ '-')) = '-' :: showNat (cores - 1).toNat := by
      simp
    have h4 : ('0' :: '-' :: showNat (cores - 1).toNat).takeWhile (fun x => decide (x ≠ '-')) = ['0'] := by simp
    rw [h3, h4]
    simp only [number_showNat, show number ['0'] = some 0 by decide, Nat.zero_le, if_true]
    rw [List.range_eq_range']
    congr 2
    omega
  · have h1 : cpu cores = "S0:0".toList := by simp [cpu, h]
    rw [h1, show max 1 cores.toNat = 1 by omega]
    decide

theorem options_command (group : List Char) (cores : Int) (markers : Bool) (w : List Char) (ws : List (List Char)) (hw : w.head? ≠ some '-') :
    options ((command group cores markers (w :: ws)).drop 1) {} = some (⟨some group, some (cpu cores), markers⟩, w :: ws) := by
  have key : ∀ o, options (w :: ws) o = some (o, w :: ws) := by
    intro o
    have n : ∀ t : List Char, t.head? = some '-' → w ≠ t := fun t ht h => hw (h ▸ ht)
    cases ws with
    | nil => simp [options, hw]
    | cons x r =>
      rw [options, if_neg (by rintro (h | h); exacts [n _ rfl h, n _ rfl h]), if_neg (n _ rfl), if_neg (n _ rfl), if_neg (n _ rfl), if_neg hw]
  cases markers
  · show options ("-f".toList :: "-O".toList :: "-g".toList :: group :: "-C".toList :: cpu cores :: w :: ws) {} = _
    rw [options, if_pos (Or.inl rfl), options, if_pos (Or.inr rfl), options, if_neg (by decide), if_neg (by decide), if_pos rfl, options,
      if_neg (by decide), if_neg (by decide), if_neg (by decide), if_pos rfl, key]
  · show options ("-f".toList :: "-O".toList :: "-g".toList :: group :: "-C".toList :: cpu cores :: "-m".toList :: w :: ws) {} = _
    rw [options, if_pos (Or.inl rfl), options, if_pos (Or.inr rfl), options, if_neg (by decide), if_neg (by decide), if_pos rfl, options,
      if_neg (by decide), if_neg (by decide), if_neg (by decide), if_pos rfl, options, if_neg (by decide), if_pos rfl, key]

/-- What is measured. -/
theorem launch_command (s : Socket) (group : List Char) (cores : Int) (markers : Bool) (w : List Char) (ws : List (List Char))
    (hw : w.head? ≠ some '-') :
    launch s (command group cores markers (w :: ws)) none =
      if max 1 cores.toNat ≤ s.cores * s.smt then
        some ⟨group, (List.range (max 1 cores.toNat)).map (· % s.cores), markers, w :: ws, some (max 1 cores.toNat)⟩ else none := by
  have h := options_command group cores markers w ws hw
  have h1 : command group cores markers (w :: ws) = "likwid-perfctr".toList :: (command group cores markers (w :: ws)).drop 1 := rfl
  rw [h1, launch]
  simp only [ne_eq, not_true_eq_false, if_false, h, Option.bind_some, positions_cpu, List.length_range]
  by_cases hc : max 1 cores.toNat ≤ s.cores * s.smt
  · rw [if_pos hc, if_pos]
    intro p hp
    have := List.mem_range.1 hp
    omega
  · rw [if_neg hc, if_neg]
    intro hp
    have := hp (max 1 cores.toNat - 1) (List.mem_range.2 (by omega))
    omega

open Verif.Bench in
theorem enter_none {K V : Type} [DecidableEq K] (accepts : K → V → Bool) (n : K) (e : Env K V) :
    ∃ e1, enterFix accepts n none e = some e1 ∧ e1 n = none ∧ ∀ k, k ≠ n → e1 k = e k := by
  by_cases h : (e n).isSome
  · exact ⟨e.set n none, by simp [enterFix, h], by simp [Env.set], fun k hk => by simp [Env.set, hk]⟩
  · exact ⟨e, by simp [enterFix, h], by simpa using h, fun _ _ => rfl⟩

end Verif.Launch
