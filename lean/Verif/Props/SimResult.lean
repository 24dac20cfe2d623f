import Verif.Lemmas.SimResult

/-!
C115: results of the cache simulation are amounts per cacheline of work.
-/

namespace Verif.SimResult

open Verif.Sim

/-- C115, partial: for loops of more than two cachelines, whose stores go through an array in steps that divide a cacheline, results exist, and
multiplied with the number of cachelines that the measured iterations store to they give what the simulator has counted. Missing: shorter loops
(`C115_negation_short`, `C115_negation_negative`), stores with other strides (`C115_negation_stride`) and other types. -/
theorem C115_per_line_partial (s : Setup) (hp : s.Plain) (hc : 0 ≤ s.maxCacheSize) (hl : s.perLine ≤ 40000)
    (hn : 2 * s.perLine + 1 < s.maxIterations) (hdvd : s.elementSize ∣ s.cachelineSize) (hoff : s.elementSize ∣ s.firstOffset 0)
    (hlin : ∀ it, s.firstOffset it = s.firstOffset 0 + it * (s.increment * s.elementSize))
    (hinc : s.increment ∣ s.perLine ∧ s.increment ∣ s.firstOffset 0 / s.elementSize)
    (levels : Nat) (counts : List (Int × Int) → Int × Int → List Counts) (count : Counts → Nat) (hlev : ∀ ws r, levels ≤ (counts ws r).length) :
    ∃ ws range res, simulate s 100 = some (ws, range) ∧ run s (s.elementSize * s.increment) levels counts count = some (range, .ok res) ∧
      0 ≤ range.1 ∧ range.1 < range.2 ∧ range.2 < s.maxIterations ∧ res.length = levels ∧
      ∀ (l : Nat) x c, res[l]? = some x → (counts ws range)[l]? = some c →
        x * (Lines.touched s.cachelineSize s.firstOffset range.1 range.2).card = count c := by
  obtain ⟨r, hr, -⟩ := C48_terminates s
  obtain ⟨b1, b2, b3⟩ := range_bounds s hp hc hl hn r hr
  obtain ⟨a1, a2⟩ := range_aligned s hp hdvd hoff hlin hinc r hr
  have he := hp.element
  have hi := hp.increment
  have hcl : 0 < s.cachelineSize := by rw [hp.line]; exact Int.pow_pos (by decide)
  have hstep : 0 < s.increment * s.elementSize := Int.mul_pos hi he
  have hsd : s.increment * s.elementSize ∣ s.cachelineSize := by
    have := Int.mul_dvd_mul_right s.elementSize hinc.1
    unfold Setup.perLine at this
    rwa [Int.ediv_mul_cancel hdvd] at this
  have ht := touched_aligned s.cachelineSize (s.increment * s.elementSize) r.2.1 r.2.2 s.firstOffset hcl hstep hsd hlin a1 a2
  have hdiff : s.firstOffset r.2.2 - s.firstOffset r.2.1 = (r.2.2 - r.2.1) * (s.increment * s.elementSize) := by
    rw [hlin r.2.2, hlin r.2.1]; ring
  obtain ⟨m, hm⟩ := a1
  obtain ⟨n, hn'⟩ := a2
  have hcard : ((Lines.touched s.cachelineSize s.firstOffset r.2.1 r.2.2).card : ℚ) = firstDimFactor s (s.elementSize * s.increment) r.2 := by
    rw [ht, Int.card_Ico, hm, hn', Int.mul_ediv_cancel_left _ (by omega), Int.mul_ediv_cancel_left _ (by omega)]
    have hlt : 0 < n - m := by
      have h1 : 0 < (r.2.2 - r.2.1) * (s.increment * s.elementSize) := Int.mul_pos (by omega) hstep
      rw [← hdiff, hm, hn', ← Int.mul_sub] at h1
      by_contra hneg
      have := Int.mul_nonpos_of_nonneg_of_nonpos (le_of_lt hcl) (show n - m ≤ 0 by omega)
      omega
    have e : s.cachelineSize * (n - m) = (r.2.2 - r.2.1) * (s.increment * s.elementSize) := by rw [← hdiff, hm, hn']; ring
    have hz : (((n - m).toNat : Int) : ℚ) = ((n - m : Int) : ℚ) := by rw [Int.toNat_of_nonneg (by omega)]
    have eq : (s.cachelineSize : ℚ) * ((n - m : Int) : ℚ) = ((r.2.2 - r.2.1 : Int) : ℚ) * ((s.increment : ℚ) * s.elementSize) := by
      exact_mod_cast e
    have c0 : (s.cachelineSize : ℚ) ≠ 0 := by exact_mod_cast (ne_of_gt hcl)
    have i0 : (s.increment : ℚ) ≠ 0 := by exact_mod_cast (ne_of_gt hi)
    have e0 : (s.elementSize : ℚ) ≠ 0 := by exact_mod_cast (ne_of_gt he)
    unfold firstDimFactor
    rw [show (((n - m).toNat : Nat) : ℚ) = (((n - m).toNat : Int) : ℚ) by norm_cast, hz]
    push_cast at eq ⊢
    field_simp
    linear_combination eq
  have hpos : firstDimFactor s (s.elementSize * s.increment) r.2 ≠ 0 := by
    unfold firstDimFactor
    have c0 : (s.cachelineSize : ℚ) ≠ 0 := by exact_mod_cast (ne_of_gt hcl)
    have i0 : (s.increment : ℚ) ≠ 0 := by exact_mod_cast (ne_of_gt hi)
    have e0 : (s.elementSize : ℚ) ≠ 0 := by exact_mod_cast (ne_of_gt he)
    have r0 : ((r.2.2 - r.2.1 : Int) : ℚ) ≠ 0 := by
      have : r.2.2 - r.2.1 ≠ 0 := by omega
      exact_mod_cast this
    push_cast at r0 ⊢
    exact div_ne_zero r0 (div_ne_zero c0 (mul_ne_zero e0 i0))
  refine ⟨r.1, r.2, _, hr, by unfold run; rw [hr]; simp only [Option.map_some]; rw [perLine_ok _ _ _ _ (hlev _ _) hpos], b1, b2, b3, ?_, ?_⟩
  · simp [hlev]
  · intro l x c hx hcnt
    rw [List.getElem?_map, List.getElem?_take] at hx
    split at hx
    · rw [hcnt] at hx
      simp only [Option.map_some, Option.some.injEq] at hx
      rw [← hx, hcard]
      field_simp
    · simp at hx

/-- Doubles in lines of 64 bytes from the start of an array on, with 1000 iterations. -/
def plain : Setup := ⟨8, 64, 6, 1, 1000, 32768, fun it => 8 * it, fun k => 5 - k⟩

example : plain.Plain ∧ 2 * plain.perLine + 1 < plain.maxIterations ∧ (∀ it, plain.firstOffset it = plain.firstOffset 0 + it * (plain.increment * plain.elementSize)) ∧
    (run plain 8 1 (fun _ r => [⟨(2 * (r.2 - r.1)).toNat, 0, 0, 0, 0⟩]) Counts.load = some ((0, 992), .ok [16])) :=
  ⟨⟨by decide, by decide, by decide⟩, by decide, fun it => by simp [plain]; omega, by decide +kernel⟩

/-- C115 does not hold for short loops: with eight iterations there are no results. -/
theorem C115_negation_short : ∃ s : Setup, s.Plain ∧ s.maxIterations = 8 ∧ (∀ it, s.firstOffset it = 8 * it) ∧
    ∀ counts count, (∀ ws r, 0 < (counts ws r).length) → run s 8 1 counts count = some ((0, 0), .error "ZeroDivisionError") := by
  refine ⟨⟨8, 64, 6, 1, 8, 32768, fun it => 8 * it, fun _ => 1⟩, ⟨by decide, by decide, by decide⟩, rfl, fun _ => rfl, fun counts count h => ?_⟩
  have e : simulate ⟨8, 64, 6, 1, 8, 32768, fun it => 8 * it, fun _ => 1⟩ 100 = some ([(0, 8)], (0, 0)) := by decide
  unfold run
  rw [e]
  simp only [Option.map_some]
  have hp := h [(0, 8)] (0, 0)
  have : (counts [(0, 8)] (0, 0))[0]? = some (counts [(0, 8)] (0, 0))[0] := List.getElem?_eq_getElem hp
  simp [perLine, List.range_succ, this, firstDimFactor, bind, Except.bind]

/-- C115 does not hold for short loops: with three iterations and stores from byte 24 on, the number of cachelines of work is negative. -/
theorem C115_negation_negative : ∃ s : Setup, s.Plain ∧ s.maxIterations = 3 ∧ (∀ it, s.firstOffset it = 24 + 8 * it) ∧
    ∃ r, simulate s 100 = some r ∧ firstDimFactor s 8 r.2 = -1 :=
  ⟨⟨8, 64, 6, 1, 3, 32768, fun it => 24 + 8 * it, fun _ => 1⟩, ⟨by decide, by decide, by decide⟩, rfl, fun _ => rfl,
    ([(0, 3), (0, 5)], (5, -3)), by decide, by decide +kernel⟩

/-- C115 does not hold for larger steps: with stores to every other cacheline, the number of cachelines of work is twice the number of cachelines. -/
theorem C115_negation_stride : ∃ s : Setup, s.Plain ∧ s.maxIterations = 1000 ∧ s.increment = 16 ∧
    (∀ it, s.firstOffset it = it * (s.increment * s.elementSize)) ∧
    ∃ r, simulate s 100 = some r ∧ (Lines.touched s.cachelineSize s.firstOffset r.2.1 r.2.2).card = 999 ∧
      firstDimFactor s (s.elementSize * s.increment) r.2 = 1998 := by
  refine ⟨⟨8, 64, 6, 16, 1000, 32768, fun it => it * 128, fun _ => 1⟩, ⟨by decide, by decide, by decide⟩, rfl, rfl, fun it => by simp,
    ([(0, 82), (82, 164), (164, 246), (246, 328), (328, 410), (410, 492), (492, 574), (574, 656), (656, 738), (738, 820), (820, 902), (902, 984),
      (984, 1000)], (0, 999)), by decide +kernel, ?_, by decide +kernel⟩
  rw [Lines.touched, Finset.card_image_of_injective]
  · simp
  · intro a b hab
    simp only at hab
    omega

end Verif.SimResult
