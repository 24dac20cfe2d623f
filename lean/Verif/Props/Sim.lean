import Verif.Model.Sim
import Mathlib.Tactic.Linarith
import Mathlib.Tactic.Ring
import Mathlib.Algebra.Order.Ring.Int
import Mathlib.Algebra.Order.Group.Unbundled.Int

/-!
C48: schedule of the cache simulation.
-/

namespace Verif.Sim

/-! ### Termination -/

theorem warmupStep_step (s : Setup) (w : Warmup) : (warmupStep s w).step = w.step + 1 := by
  unfold warmupStep
  simp only
  split <;> rfl

theorem warmupLoop_terminates (s : Setup) (fuel : Nat) (w : Warmup) (h : 100 - w.step ≤ fuel) :
    ∃ t, warmupLoop s fuel w = some t := by
  induction fuel generalizing w with
  | zero =>
    rw [warmupLoop, if_neg (by omega)]
    exact ⟨w, rfl⟩
  | succ fuel ih =>
    rw [warmupLoop]
    split
    · exact ih _ (by rw [warmupStep_step]; omega)
    · exact ⟨w, rfl⟩

/-- C48: the warm-up ends after at most 100 steps, for every behaviour of the caches. -/
theorem C48_terminates (s : Setup) : ∃ r, simulate s 100 = some r ∧ r.1.length ≤ 102 := by
  obtain ⟨w, hw⟩ := warmupLoop_terminates s 100 ⟨0, false, 0, []⟩ (by simp)
  have hlen : ∀ fuel w t, warmupLoop s fuel w = some t → w.ranges.length = w.step → w.step ≤ 100 →
      t.ranges.length ≤ 100 := by
    intro fuel
    induction fuel with
    | zero =>
      intro w t h h1 h2
      rw [warmupLoop] at h
      split at h
      · simp at h
      · simp only [Option.some.injEq] at h; subst h; omega
    | succ fuel ih =>
      intro w t h h1 h2
      rw [warmupLoop] at h
      split at h
      · rename_i hc
        refine ih _ t h ?_ (by rw [warmupStep_step]; omega)
        unfold warmupStep
        simp only
        split <;> simp [h1]
      · simp only [Option.some.injEq] at h; subst h; omega
  have h1 := hlen _ _ _ hw rfl (by simp)
  have h2 : (phase2 s w).ranges.length ≤ 101 := by
    unfold phase2
    split
    · exact Nat.le_succ_of_le h1
    · split
      · simp; omega
      · exact Nat.le_succ_of_le h1
  have h3 : (phase3 s (phase2 s w)).ranges.length ≤ 102 := by
    unfold phase3
    simp only
    split
    · exact Nat.le_succ_of_le h2
    · simp; omega
  refine ⟨_, by unfold simulate; rw [hw]; rfl, ?_⟩
  simpa using h3

/-! ### Alignment -/

/-- Elements per cacheline. -/
def Setup.perLine (s : Setup) : Int := s.cachelineSize / s.elementSize

/-- Plain sizes: positive, the cacheline size is the power of two of the caches. -/
structure Setup.Plain (s : Setup) : Prop where
  element : 0 < s.elementSize
  line : s.cachelineSize = 2 ^ s.clBits
  increment : 0 < s.increment

theorem diff_bounds (s : Setup) (off : Int) :
    off - off / 2 ^ s.clBits * 2 ^ s.clBits = off % 2 ^ s.clBits ∧ 0 ≤ off % 2 ^ s.clBits ∧
      off % 2 ^ s.clBits < 2 ^ s.clBits := by
  have hp : (0 : Int) < 2 ^ s.clBits := Int.pow_pos (by decide)
  refine ⟨?_, Int.emod_nonneg _ (by omega), Int.emod_lt_of_pos _ hp⟩
  have := Int.mul_ediv_add_emod off (2 ^ s.clBits)
  linarith [Int.mul_comm (2 ^ s.clBits) (off / 2 ^ s.clBits)]

theorem align_bounds (s : Setup) (hp : s.Plain) (it : Int) :
    it - s.perLine ≤ align s it true ∧ align s it true ≤ it ∧ it ≤ align s it false ∧
      align s it false ≤ it + s.perLine := by
  obtain ⟨h1, h2, h3⟩ := diff_bounds s (s.firstOffset it)
  have hm1 : 0 ≤ s.firstOffset it % 2 ^ s.clBits / s.elementSize := Int.ediv_nonneg h2 (le_of_lt hp.element)
  have hm2 : s.firstOffset it % 2 ^ s.clBits / s.elementSize ≤ s.perLine := by
    unfold Setup.perLine
    rw [hp.line]
    exact Int.ediv_le_ediv hp.element (le_of_lt h3)
  have div_le : ∀ a : Int, 0 ≤ a → 0 ≤ a / s.increment ∧ a / s.increment ≤ a := fun a ha =>
    ⟨Int.ediv_nonneg ha (le_of_lt hp.increment), Int.ediv_le_self _ ha⟩
  have hd1 := div_le _ hm1
  have hd2 := div_le (s.perLine - s.firstOffset it % 2 ^ s.clBits / s.elementSize) (by omega)
  have hpl : 0 ≤ s.perLine := by omega
  unfold align
  simp only [h1]
  by_cases h0 : s.firstOffset it % 2 ^ s.clBits = 0
  · simp only [h0, if_true]
    omega
  · simp only [h0, if_false]
    unfold Setup.perLine at *
    refine ⟨?_, ?_, ?_, ?_⟩ <;> simp <;> omega

/-- C48, partial: if offsets are multiples of the element size and grow by one element per index step, and the
increment of the loop divides the distances to the cacheline boundaries, the alignment returns an iteration at a
cacheline boundary, in the requested direction, less than a cacheline away. Other increments and offsets are missing
(`C48_negation_alignment`). -/
theorem C48_aligned_partial (s : Setup) (hp : s.Plain) (hdvd : s.elementSize ∣ s.cachelineSize) (it : Int)
    (hoff : s.elementSize ∣ s.firstOffset it)
    (hlin : ∀ n, -s.perLine ≤ n → n ≤ s.perLine →
      s.firstOffset (it + n) = s.firstOffset it + n * (s.increment * s.elementSize))
    (hinc : s.increment ∣ s.perLine ∧ s.increment ∣ s.firstOffset it / s.elementSize) :
    (s.cachelineSize ∣ s.firstOffset (align s it true) ∧ it - s.perLine < align s it true ∧ align s it true ≤ it) ∧
    (s.cachelineSize ∣ s.firstOffset (align s it false) ∧ it ≤ align s it false ∧ align s it false < it + s.perLine) := by
  obtain ⟨h1, h2, h3⟩ := diff_bounds s (s.firstOffset it)
  have hb := align_bounds s hp it
  obtain ⟨k, hk⟩ := hdvd
  have he := hp.element
  have hk' : s.perLine = k := by
    unfold Setup.perLine; rw [hk, Int.mul_ediv_cancel_left _ (by omega)]
  have hline : (0 : Int) < 2 ^ s.clBits := Int.pow_pos (by decide)
  have hkpos : 0 < k := by
    have := hp.line
    by_contra hc
    have : s.elementSize * k ≤ 0 := Int.mul_nonpos_of_nonneg_of_nonpos (le_of_lt he) (by omega)
    omega
  obtain ⟨q, hq⟩ := hoff
  -- offset in elements inside the cacheline
  have hmod : s.firstOffset it % 2 ^ s.clBits = s.elementSize * (q % k) := by
    rw [← hp.line, hk, hq, Int.mul_emod_mul_of_pos _ _ he]
  have hdiv : s.firstOffset it % 2 ^ s.clBits / s.elementSize = q % k := by
    rw [hmod, Int.mul_ediv_cancel_left _ (by omega)]
  have hq' : s.firstOffset it / s.elementSize = q := by
    rw [hq, Int.mul_ediv_cancel_left _ (by omega)]
  have hqk := Int.emod_nonneg q (show k ≠ 0 by omega)
  have hqk2 := Int.emod_lt_of_pos q hkpos
  rw [hk', hq'] at hinc
  have hi := hp.increment
  obtain ⟨a, ha⟩ : s.increment ∣ q % k := by
    rw [Int.emod_def]
    exact Int.dvd_sub hinc.2 (Int.dvd_trans hinc.1 (Int.dvd_mul_right _ _))
  obtain ⟨b, hb'⟩ : s.increment ∣ k - q % k := Int.dvd_sub hinc.1 ⟨a, ha⟩
  have hda : q % k / s.increment = a := by rw [ha, Int.mul_ediv_cancel_left _ (by omega)]
  have hdb : (k - q % k) / s.increment = b := by rw [hb', Int.mul_ediv_cancel_left _ (by omega)]
  have hself : s.firstOffset it % 2 ^ s.clBits = 0 → s.cachelineSize ∣ s.firstOffset it := by
    intro h0
    rw [hp.line]
    exact Int.dvd_of_emod_eq_zero h0
  have hqeq := Int.mul_ediv_add_emod q k
  by_cases h0 : s.firstOffset it % 2 ^ s.clBits = 0
  · have e1 : ∀ b, align s it b = it := by
      intro b
      unfold align
      simp only [h1, h0, if_true]
    rw [e1, e1, hk']
    exact ⟨⟨hself h0, by omega, le_refl _⟩, hself h0, le_refl _, by omega⟩
  · have hne : q % k ≠ 0 := by
      intro hc
      rw [hmod, hc] at h0
      simp at h0
    have e1 : align s it true = it - a := by
      unfold align
      simp only [h1, h0, if_false, if_true, hdiv, hda]
    have e2 : align s it false = it + b := by
      have : s.cachelineSize / s.elementSize = k := hk'
      unfold align
      simp only [h1, h0, if_false, hdiv, this, hdb, Bool.false_eq_true]
    rw [e1, e2, hk'] at hb
    rw [e1, e2, hk']
    have hab : a ≤ q % k := by
      rw [ha]
      have : 0 ≤ a := by
        by_contra hc
        have : s.increment * a < 0 := Int.mul_neg_of_pos_of_neg hi (by omega)
        omega
      nlinarith
    have hbb : b ≤ k - q % k := by
      rw [hb']
      have : 0 ≤ b := by
        by_contra hc
        have : s.increment * b < 0 := Int.mul_neg_of_pos_of_neg hi (by omega)
        omega
      nlinarith
    refine ⟨⟨?_, by omega, by omega⟩, ?_, by omega, by omega⟩
    · have := hlin (-a) (by rw [hk']; omega) (by rw [hk']; omega)
      rw [show it - a = it + -a by ring, this, hq, hk]
      refine ⟨q / k, ?_⟩
      have : s.elementSize * q + -a * (s.increment * s.elementSize) = s.elementSize * (q - s.increment * a) := by ring
      rw [this, ← ha]
      have : q - q % k = k * (q / k) := by linarith
      rw [this]
      ring
    · have := hlin b (by rw [hk']; omega) (by rw [hk']; omega)
      rw [this, hq, hk]
      refine ⟨q / k + 1, ?_⟩
      have : s.elementSize * q + b * (s.increment * s.elementSize) = s.elementSize * (q + s.increment * b) := by ring
      rw [this, ← hb']
      have : q + (k - q % k) = k * (q / k) + k := by linarith
      rw [this]
      ring

/-- Doubles in lines of 64 bytes, a loop over all elements starting at byte 24. -/
def example1 : Setup := ⟨8, 64, 6, 1, 1000000, 32768, fun it => 24 + 8 * it, fun k => 5 - k⟩

example : example1.Plain ∧ example1.elementSize ∣ example1.cachelineSize ∧
    example1.elementSize ∣ example1.firstOffset 0 ∧ align example1 0 false = 5 ∧ align example1 10 true = 5 :=
  ⟨⟨by decide, by decide, by decide⟩, by decide, by decide, by decide, by decide⟩

/-- C48 does not hold for other increments: with an increment of two and a store at byte 24 no iteration is moved to a
cacheline boundary. -/
theorem C48_negation_alignment : ∃ s : Setup, s.Plain ∧ s.elementSize ∣ s.cachelineSize ∧
    (∀ it, s.firstOffset it = s.firstOffset 0 + it * (s.increment * s.elementSize)) ∧
    s.elementSize ∣ s.firstOffset 0 ∧ ¬ s.cachelineSize ∣ s.firstOffset (align s 0 false) :=
  ⟨⟨8, 64, 6, 2, 1000, 32768, fun it => 24 + 16 * it, fun _ => 0⟩, ⟨by decide, by decide, by decide⟩, by decide,
    fun it => by simp; omega, by decide, by decide⟩

/-- C48 does not hold for small kernels: with three iterations the warm-up runs up to iteration five, and the measured
range ends at iteration minus three. -/
theorem C48_negation_beyond : ∃ s : Setup, s.Plain ∧ s.elementSize ∣ s.cachelineSize ∧ s.increment = 1 ∧
    s.maxIterations = 3 ∧ simulate s 100 = some ([(0, 3), (0, 5)], (5, -3)) :=
  ⟨⟨8, 64, 6, 1, 3, 32768, fun it => 24 + 8 * it, fun _ => 1⟩, ⟨by decide, by decide, by decide⟩, by decide, rfl, rfl,
    by decide⟩

/-! ### Ranges -/

/-- Ranges, newest first, that follow each other up to iteration `it`, starting again from zero only after the last
iteration was reached. -/
def Chained (last : Int) : List (Int × Int) → Int → Prop
  | [], it => it = 0
  | (a, b) :: rest, it => (it = b ∨ (b = last ∧ it = 0)) ∧ Chained last rest a

/-- What holds after each phase. -/
structure WInv (s : Setup) (w : Warmup) : Prop where
  it : 0 ≤ w.iteration ∧ w.iteration ≤ s.maxIterations
  ranges : ∀ r ∈ w.ranges, 0 ≤ r.1 ∧ r.1 ≤ r.2 ∧ r.2 ≤ s.maxIterations
  chain : Chained s.maxIterations w.ranges w.iteration
  sweep : w.complete = true → w.iteration = s.maxIterations ∧ ∃ r ∈ w.ranges, r.2 = s.maxIterations

theorem warmupStep_inv (s : Setup) (hinc : 0 ≤ warmupIncrement s) (w : Warmup) (h : WInv s w)
    (hc : w.complete = false) : WInv s (warmupStep s w) := by
  have hit := h.it
  unfold warmupStep
  simp only
  split
  · refine ⟨⟨by simp; omega, le_refl _⟩, ?_, ⟨Or.inl rfl, h.chain⟩,
      fun _ => ⟨rfl, (w.iteration, s.maxIterations), by simp, rfl⟩⟩
    intro r hr
    rcases List.mem_cons.1 hr with rfl | hr
    · exact ⟨hit.1, hit.2, le_refl _⟩
    · exact h.ranges r hr
  · refine ⟨⟨by simp; omega, by simp; omega⟩, ?_, ⟨Or.inl rfl, h.chain⟩, by simp [hc]⟩
    intro r hr
    rcases List.mem_cons.1 hr with rfl | hr
    · exact ⟨hit.1, by simp; omega, by simp; omega⟩
    · exact h.ranges r hr

theorem warmupLoop_inv (s : Setup) (hinc : 0 ≤ warmupIncrement s) (fuel : Nat) (w t : Warmup) (h : WInv s w)
    (ht : warmupLoop s fuel w = some t) : WInv s t := by
  induction fuel generalizing w with
  | zero =>
    rw [warmupLoop] at ht
    split at ht
    · simp at ht
    · simp only [Option.some.injEq] at ht; exact ht ▸ h
  | succ fuel ih =>
    rw [warmupLoop] at ht
    split at ht
    · rename_i hc
      exact ih _ (warmupStep_inv s hinc w h hc.2.2) ht
    · simp only [Option.some.injEq] at ht; exact ht ▸ h

theorem warmupIncrement_nonneg (s : Setup) (he : 0 < s.elementSize) (hc : 0 ≤ s.maxCacheSize) :
    0 ≤ warmupIncrement s := by
  unfold warmupIncrement ceildiv
  have : 0 ≤ s.maxCacheSize / s.elementSize := Int.ediv_nonneg hc (le_of_lt he)
  have h2 : (100 / 2 : Int) = 50 := rfl
  rw [h2]
  omega

/-- C48, partial: for kernels of more than two cachelines, every simulated range lies inside the iterations of the
kernel, ranges follow each other, starting from zero again only after the last iteration, and the measured range
starts where the warm-up ended and lies before the last iteration. Smaller kernels are missing
(`C48_negation_beyond`). -/
theorem C48_ranges_partial (s : Setup) (hp : s.Plain) (hc : 0 ≤ s.maxCacheSize)
    (hmax : 2 * s.perLine < s.maxIterations) (hpl : s.perLine < 50000) (fuel : Nat)
    (ranges : List (Int × Int)) (measured : Int × Int) (h : simulate s fuel = some (ranges, measured)) :
    (∀ r ∈ ranges, 0 ≤ r.1 ∧ r.1 ≤ r.2 ∧ r.2 ≤ s.maxIterations) ∧
    Chained s.maxIterations ranges.reverse measured.1 ∧
    0 ≤ measured.1 ∧ measured.1 ≤ measured.2 ∧ measured.2 < s.maxIterations := by
  have hk : 0 ≤ s.perLine := by
    unfold Setup.perLine
    rw [hp.line]
    exact Int.ediv_nonneg (le_of_lt (Int.pow_pos (by decide))) (le_of_lt hp.element)
  have hmax0 : 0 < s.maxIterations := by omega
  unfold simulate at h
  rw [Option.map_eq_some_iff] at h
  obtain ⟨w, hw, h⟩ := h
  have hinc := warmupIncrement_nonneg s hp.element hc
  have h1 : WInv s w := warmupLoop_inv s hinc fuel ⟨0, false, 0, []⟩ w
    ⟨⟨le_refl _, le_of_lt hmax0⟩, by simp, rfl, by simp⟩ hw
  -- after phase 2
  have h2 : (∀ r ∈ (phase2 s w).ranges, 0 ≤ r.1 ∧ r.1 ≤ r.2 ∧ r.2 ≤ s.maxIterations) ∧
      Chained s.maxIterations (phase2 s w).ranges (phase2 s w).iteration ∧ 0 ≤ (phase2 s w).iteration ∧
      ((phase2 s w).iteration = 0 ∨ (phase2 s w).iteration ≤ s.maxIterations - 100000) := by
    have hit := h1.it
    unfold phase2
    split
    · rename_i hcomp
      obtain ⟨hx, _⟩ := h1.sweep hcomp
      refine ⟨h1.ranges, ?_, le_refl _, Or.inl rfl⟩
      have := h1.chain
      rw [hx] at this
      simp only
      cases hr : w.ranges with
      | nil => rw [hr] at this; exact rfl
      | cons r rest =>
        rw [hr] at this
        obtain ⟨a, b⟩ := r
        refine ⟨Or.inr ⟨?_, rfl⟩, this.2⟩
        rcases this.1 with h' | h'
        · exact h'.symm
        · exact h'.1
    · split
      · refine ⟨?_, ⟨Or.inr ⟨rfl, rfl⟩, h1.chain⟩, le_refl _, Or.inl rfl⟩
        intro r hr
        rcases List.mem_cons.1 hr with rfl | hr
        · exact ⟨hit.1, hit.2, le_refl _⟩
        · exact h1.ranges r hr
      · exact ⟨h1.ranges, h1.chain, hit.1, Or.inr (by omega)⟩
  obtain ⟨r2, c2, n2, e2⟩ := h2
  have hal := align_bounds s hp (phase2 s w).iteration
  -- after phase 3
  have h3 : (∀ r ∈ (phase3 s (phase2 s w)).ranges, 0 ≤ r.1 ∧ r.1 ≤ r.2 ∧ r.2 ≤ s.maxIterations) ∧
      Chained s.maxIterations (phase3 s (phase2 s w)).ranges (phase3 s (phase2 s w)).iteration ∧
      (phase2 s w).iteration ≤ (phase3 s (phase2 s w)).iteration ∧
      (phase3 s (phase2 s w)).iteration ≤ (phase2 s w).iteration + s.perLine := by
    unfold phase3
    simp only
    split
    · exact ⟨r2, c2, le_refl _, by omega⟩
    · refine ⟨?_, ⟨Or.inl rfl, c2⟩, by simp; omega, by simp; omega⟩
      intro r hr
      rcases List.mem_cons.1 hr with rfl | hr
      · exact ⟨n2, by simp; omega, by simp; omega⟩
      · exact r2 r hr
  obtain ⟨r3, c3, l3, u3⟩ := h3
  simp only [Prod.mk.injEq] at h
  obtain ⟨hr, hm⟩ := h
  have hal2 := align_bounds s hp (min ((phase3 s (phase2 s w)).iteration + 100000) (s.maxIterations - 1))
  rw [← hr, ← hm]
  simp only
  refine ⟨fun r hr => r3 r (List.mem_reverse.1 hr), by rw [List.reverse_reverse]; exact c3, by omega, by omega, by omega⟩

example : 2 * example1.perLine < example1.maxIterations ∧ example1.perLine < 50000 ∧ 0 ≤ example1.maxCacheSize ∧
    simulate example1 100 = some ([(0, 82), (82, 164), (164, 246), (246, 328), (328, 410), (410, 413)], (413, 100413)) := by
  decide

end Verif.Sim
