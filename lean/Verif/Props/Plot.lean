import Verif.Lemmas.Plot

/-!
C164: the points of the plotted roofline.
-/

namespace Verif.Plot

/-- The claim of C164: the line has the points of the roofline at the samples of the range. -/
def C164Claim : Prop :=
  ∀ (lo hi step bw peak : ℚ), 0 < step → ∃ fuel pts, line fuel lo hi step bw peak = some pts ∧
    Sampled lo hi step (pts.map Prod.fst) ∧ ∀ p ∈ pts, Roof bw peak p.1 p.2

/-- C164: the samples come to an end exactly if there are none or the step is positive. -/
theorem C164_ends_iff (lo hi step : ℚ) : (∃ fuel l, frange fuel lo hi step = some l) ↔ hi ≤ lo ∨ 0 < step := by
  constructor
  · rintro ⟨fuel, l, h⟩
    by_contra hc
    push Not at hc
    rw [frange_endless hi step hc.2 fuel lo hc.1] at h
    simp at h
  · rintro (h | h)
    · exact frange_ends hi step 0 lo (by simpa using h)
    · obtain ⟨n, hn⟩ := exists_nat_ge ((hi - lo) / step)
      refine frange_ends hi step n lo ?_
      rw [div_le_iff₀ h] at hn
      linarith

/-- C164, partial: there are as many samples as the range needs, and they are a step apart, but every one of them is a step too far. Missing: the
samples themselves (`C164_negation`). -/
theorem C164_samples_partial (fuel : Nat) (lo hi step : ℚ) (l : List ℚ) (hs : 0 < step) (h : frange fuel lo hi step = some l) :
    Sampled lo hi step (l.map (· - step)) := by
  obtain ⟨n, hn, rfl⟩ := frange_some hi step hs fuel lo l h
  refine ⟨n, hn, ?_⟩
  rw [List.map_map]
  apply List.map_congr_left
  intro k _
  simp only [Function.comp]
  ring

/-- C164: the samples are those of the range exactly if the range is empty. -/
theorem C164_samples_iff (fuel : Nat) (lo hi step : ℚ) (l : List ℚ) (hs : 0 < step) (h : frange fuel lo hi step = some l) :
    Sampled lo hi step l ↔ hi ≤ lo := by
  obtain ⟨n, hn, rfl⟩ := frange_some hi step hs fuel lo l h
  have h0 := hn 0
  simp only [Nat.cast_zero, zero_mul, add_zero] at h0
  constructor
  · rintro ⟨m, -, hm⟩
    by_contra hc
    push Not at hc
    have hlen := congrArg List.length hm
    simp only [List.length_map, List.length_range] at hlen
    subst hlen
    have hg := congrArg (fun x : List ℚ => x[0]?) hm
    have hp := h0.mpr hc
    simp [hp] at hg
    linarith
  · intro hle
    have hn0 : n = 0 := by
      by_contra hne
      exact absurd (h0.mp (by omega)) (by push Not; exact hle)
    subst hn0
    exact ⟨0, hn, rfl⟩

/-- C164: the lower end is not a sample, and the last sample is not in the range. -/
theorem C164_outside (fuel : Nat) (lo hi step : ℚ) (l : List ℚ) (hs : 0 < step) (h : frange fuel lo hi step = some l) :
    (∀ x ∈ l, lo + step ≤ x ∧ x < hi + step) ∧ ∀ x ∈ l.getLast?, hi ≤ x := by
  obtain ⟨n, hn, rfl⟩ := frange_some hi step hs fuel lo l h
  constructor
  · intro x hx
    simp only [List.mem_map, List.mem_range] at hx
    obtain ⟨k, hk, rfl⟩ := hx
    have h1 := (hn k).mp hk
    have h2 : (0 : ℚ) ≤ k * step := mul_nonneg (Nat.cast_nonneg k) hs.le
    constructor <;> linarith
  · intro x hx
    cases n with
    | zero => simp at hx
    | succ n =>
      rw [List.range_succ, List.map_append] at hx
      simp at hx
      have h1 := (hn (n + 1)).not.mp (by omega)
      push Not at h1
      push_cast at h1
      linarith

/-- C164, partial: every point lies on the roofline. -/
theorem C164_roof_partial (fuel : Nat) (lo hi step bw peak : ℚ) (pts : List (ℚ × ℚ)) (h : line fuel lo hi step bw peak = some pts) :
    ∀ p ∈ pts, Roof bw peak p.1 p.2 := by
  intro p hp
  simp only [line, Option.map_eq_some_iff] at h
  obtain ⟨xs, -, rfl⟩ := h
  simp only [List.mem_map] at hp
  obtain ⟨x, -, rfl⟩ := hp
  exact ⟨min_le_left _ _, min_le_right _ _, min_choice _ _⟩

/-- C164, partial: the points are above the samples of `frange`. -/
theorem C164_line_partial (fuel : Nat) (lo hi step bw peak : ℚ) (pts : List (ℚ × ℚ)) (h : line fuel lo hi step bw peak = some pts) :
    frange fuel lo hi step = some (pts.map Prod.fst) := by
  simp only [line, Option.map_eq_some_iff] at h
  obtain ⟨xs, hx, rfl⟩ := h
  rw [hx, List.map_map]
  simp [Function.comp_def]

/-- The claim is violated by the code: the range from 0 to 2 in steps of 1 is sampled at 1 and 2. -/
theorem C164_negation : ¬ C164Claim := by
  intro hc
  obtain ⟨fuel, pts, h1, h2, -⟩ := hc 0 2 1 1 1 (by norm_num)
  have := (C164_samples_iff fuel 0 2 1 _ (by norm_num) (C164_line_partial _ _ _ _ _ _ _ h1)).mp h2
  norm_num at this

example : frange 10 0 2 1 = some [1, 2] := by
  norm_num [frange]

example : line 10 0 (5 / 2) 1 2 3 = some [(1, 2), (2, 3), (3, 3)] := by
  norm_num [line, frange]

example : frange 10 3 2 (-1) = some [] := by
  norm_num [frange]

end Verif.Plot
