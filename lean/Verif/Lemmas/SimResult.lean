import Verif.Model.SimResult
import Verif.Spec.Lines
import Verif.Props.Sim
import Mathlib.Tactic.FieldSimp
import Mathlib.Tactic.Ring
import Mathlib.Tactic.LinearCombination
import Mathlib.Tactic.Linarith
import Mathlib.Data.Rat.Cast.Order

/-!
Measured ranges and the cachelines they go through.
-/

namespace Verif.SimResult

open Verif.Sim

/-- Bounds of the iteration after the second phase. -/
theorem phase2_bounds (s : Setup) (hc : 0 ≤ s.maxCacheSize) (he : 0 < s.elementSize) (h0 : 0 ≤ s.maxIterations) (w : Warmup)
    (h : warmupLoop s 100 ⟨0, false, 0, []⟩ = some w) :
    (phase2 s w).iteration = 0 ∨ 0 ≤ (phase2 s w).iteration ∧ (phase2 s w).iteration ≤ s.maxIterations - 100000 := by
  have hi : WInv s w := warmupLoop_inv s (warmupIncrement_nonneg s he hc) 100 ⟨0, false, 0, []⟩ w
    ⟨⟨le_refl _, h0⟩, by simp, rfl, by simp⟩ h
  unfold phase2
  split
  · exact .inl rfl
  · split
    · exact .inl rfl
    · exact .inr ⟨hi.it.1, by omega⟩

/-- The measured range of a kernel with enough iterations. -/
theorem range_bounds (s : Setup) (hp : s.Plain) (hc : 0 ≤ s.maxCacheSize) (hl : s.perLine ≤ 40000)
    (hn : 2 * s.perLine + 1 < s.maxIterations) (r : List (Int × Int) × (Int × Int)) (h : simulate s 100 = some r) :
    0 ≤ r.2.1 ∧ r.2.1 < r.2.2 ∧ r.2.2 < s.maxIterations := by
  unfold simulate at h
  obtain ⟨w, hw, rfl⟩ := Option.map_eq_some_iff.1 h
  have hpl : 0 ≤ s.perLine := by
    have := align_bounds s hp 0
    omega
  have h2 := phase2_bounds s hc hp.element (by omega) w hw
  have h3 : (phase3 s (phase2 s w)).iteration = align s (phase2 s w).iteration false := by
    unfold phase3
    simp only
    split
    · rename_i e; exact e.symm
    · rfl
  simp only [h3]
  have a1 := align_bounds s hp (phase2 s w).iteration
  have a2 := align_bounds s hp (min (align s (phase2 s w).iteration false + 100000) (s.maxIterations - 1))
  omega

/-- Cachelines of a range between two boundaries. -/
theorem touched_aligned (cl step a b : Int) (off : Int → Int) (hcl : 0 < cl) (hs : 0 < step) (hd : step ∣ cl)
    (hlin : ∀ it, off it = off 0 + it * step) (ha : cl ∣ off a) (hb : cl ∣ off b) :
    Lines.touched cl off a b = Finset.Ico (off a / cl) (off b / cl) := by
  obtain ⟨m, hm⟩ := ha
  obtain ⟨n, hn⟩ := hb
  obtain ⟨k, hk⟩ := hd
  have hkp : 0 < k := by
    by_contra hneg
    have : step * k ≤ 0 := Int.mul_nonpos_of_nonneg_of_nonpos (le_of_lt hs) (by omega)
    omega
  ext L
  simp only [Lines.touched, Finset.mem_image, Finset.mem_Ico]
  rw [hm, hn, Int.mul_ediv_cancel_left _ (by omega), Int.mul_ediv_cancel_left _ (by omega)]
  constructor
  · rintro ⟨it, ⟨h1, h2⟩, rfl⟩
    have e1 : off it = off a + (it - a) * step := by rw [hlin it, hlin a]; ring
    have e2 : off it = off b - (b - it) * step := by rw [hlin it, hlin b]; ring
    constructor
    · rw [Int.le_ediv_iff_mul_le hcl]
      have : 0 ≤ (it - a) * step := Int.mul_nonneg (by omega) (le_of_lt hs)
      rw [e1, hm]
      linarith [Int.mul_comm m cl]
    · rw [Int.ediv_lt_iff_lt_mul hcl]
      have : 0 < (b - it) * step := Int.mul_pos (by omega) hs
      rw [e2, hn]
      linarith [Int.mul_comm n cl]
  · rintro ⟨h1, h2⟩
    have e : off (a + (L - m) * k) = cl * L := by
      have : off (a + (L - m) * k) = off a + (L - m) * (step * k) := by rw [hlin (a + (L - m) * k), hlin a]; ring
      rw [this, hm, ← hk]; ring
    refine ⟨a + (L - m) * k, ⟨?_, ?_⟩, ?_⟩
    · have : 0 ≤ (L - m) * k := Int.mul_nonneg (by omega) (le_of_lt hkp)
      omega
    · by_contra hge
      have hge : b ≤ a + (L - m) * k := by omega
      have h3 : off b ≤ off (a + (L - m) * k) := by
        rw [hlin b, hlin (a + (L - m) * k)]
        have := Int.mul_le_mul_of_nonneg_right hge (le_of_lt hs)
        omega
      rw [hn, e] at h3
      have := Int.le_of_mul_le_mul_left h3 hcl
      omega
    · rw [e, Int.mul_ediv_cancel_left _ (by omega)]

/-- Both ends of the measured range are at boundaries of cachelines. -/
theorem range_aligned (s : Setup) (hp : s.Plain) (hdvd : s.elementSize ∣ s.cachelineSize) (hoff : s.elementSize ∣ s.firstOffset 0)
    (hlin : ∀ it, s.firstOffset it = s.firstOffset 0 + it * (s.increment * s.elementSize))
    (hinc : s.increment ∣ s.perLine ∧ s.increment ∣ s.firstOffset 0 / s.elementSize)
    (r : List (Int × Int) × (Int × Int)) (h : simulate s 100 = some r) :
    s.cachelineSize ∣ s.firstOffset r.2.1 ∧ s.cachelineSize ∣ s.firstOffset r.2.2 := by
  have key : ∀ it, s.cachelineSize ∣ s.firstOffset (align s it true) ∧ s.cachelineSize ∣ s.firstOffset (align s it false) := by
    intro it
    have e : s.firstOffset it = s.elementSize * (s.firstOffset 0 / s.elementSize + it * s.increment) := by
      have := Int.mul_ediv_cancel' hoff
      rw [hlin it]
      linear_combination -this
    have := C48_aligned_partial s hp hdvd it (by rw [e]; exact Int.dvd_mul_right _ _)
      (fun n _ _ => by rw [hlin (it + n), hlin it]; ring)
      ⟨hinc.1, by
        rw [e, Int.mul_ediv_cancel_left _ (by have := hp.element; omega)]
        exact Int.dvd_add hinc.2 (Int.dvd_mul_left _ _)⟩
    exact ⟨this.1.1, this.2.1⟩
  unfold simulate at h
  obtain ⟨w, hw, rfl⟩ := Option.map_eq_some_iff.1 h
  have h3 : (phase3 s (phase2 s w)).iteration = align s (phase2 s w).iteration false := by
    unfold phase3
    simp only
    split
    · rename_i e; exact e.symm
    · rfl
  simp only [h3]
  exact ⟨(key _).2, (key _).1⟩

/-- Division of the counts of all levels. -/
theorem perLine_ok (stats : List Counts) (levels : Nat) (factor : ℚ) (count : Counts → Nat) (hl : levels ≤ stats.length) (hf : factor ≠ 0) :
    perLine stats levels factor count = .ok ((stats.take levels).map fun c => (count c : ℚ) / factor) := by
  unfold perLine
  induction levels with
  | zero => simp; rfl
  | succ n ih =>
    rw [List.range_succ, List.mapM_append, ih (by omega)]
    have : stats[n]? = some stats[n] := List.getElem?_eq_getElem (by omega)
    rw [List.take_add_one, this]
    simp [bind, Except.bind, this, hf, pure, Except.pure]
    rw [List.take_add_one, List.getElem?_map, this]
    rfl

end Verif.SimResult
