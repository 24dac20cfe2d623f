import Verif.Model.Tile
import Mathlib.Tactic.Linarith
import Mathlib.Tactic.NormNum

/-!
C36: the search for blocking lengths. C62: the quality of the length found.
-/

namespace Verif.Tile

theorem widen_terminates (runtime : Int → ℚ) (fuel : Nat) (s : Search) (hpos : 0 < s.length)
    (hf : (s.maxLength - s.length).toNat ≤ fuel) : ∃ t, widen runtime fuel s = some t := by
  induction fuel generalizing s with
  | zero =>
    rw [widen, if_neg (by omega)]
    exact ⟨s, rfl⟩
  | succ fuel ih =>
    rw [widen]
    by_cases h : s.length < s.maxLength
    · rw [if_pos h]
      by_cases hr : s.minRuntime < runtime s.length
      · simp only [hr, if_true]
        exact ih _ hpos (by simp)
      · simp only [hr, if_false]
        apply ih
        · simp; omega
        · simp; omega
    · rw [if_neg h]
      exact ⟨s, rfl⟩

theorem narrow_terminates (runtime : Int → ℚ) (fuel : Nat) (s : Search)
    (hf : (s.maxLength - s.minLength).toNat ≤ fuel) : ∃ t, narrow runtime fuel s = some t := by
  induction fuel generalizing s with
  | zero =>
    rw [narrow, if_neg (by omega)]
    exact ⟨s, rfl⟩
  | succ fuel ih =>
    rw [narrow]
    by_cases h : 10 < s.maxLength - s.minLength
    · rw [if_pos h]
      by_cases hr : runtime ((s.maxLength - s.minLength) / 2 + s.minLength) ≤ s.minRuntime
      · simp only [hr, if_true]
        apply ih
        simp only
        omega
      · simp only [hr, if_false]
        apply ih
        simp only
        omega
    · rw [if_neg h]
      exact ⟨s, rfl⟩

/-- What the search keeps: everything simulated is the start length or inside the window. -/
structure Inv (runtime : Int → ℚ) (lo hi : Int) (s : Search) : Prop where
  min : lo ≤ s.minLength
  max : s.maxLength ≤ hi
  start : lo ∈ s.evaluated
  window : ∀ l ∈ s.evaluated, l = lo ∨ (lo < l ∧ l < hi)
  minEvaluated : s.minLength ∈ s.evaluated
  best : s.minRuntime = runtime s.minLength
  improves : s.minRuntime ≤ runtime lo

theorem widen_inv (runtime : Int → ℚ) (lo hi : Int) (fuel : Nat) (s t : Search) (hi' : Inv runtime lo hi s)
    (hl : lo < s.length) (hpos : 0 < lo) (h : widen runtime fuel s = some t) :
    Inv runtime lo hi t ∧ lo < t.length ∧ t.maxLength ≤ t.length ∧ t.minLength = s.minLength ∧
      (t.maxLength = s.maxLength ∨ (t.maxLength ∈ t.evaluated ∧ lo < t.maxLength ∧
        s.minRuntime < runtime t.maxLength ∧ t.length = t.maxLength)) ∧ t.minRuntime = s.minRuntime := by
  have upd : ∀ s : Search, Inv runtime lo hi s → lo < s.length → s.length < s.maxLength →
      ∀ m l, m ≤ hi → Inv runtime lo hi { s with maxLength := m, length := l, evaluated := s.length :: s.evaluated } := by
    intro s hs hl hlt m l hm
    refine ⟨hs.min, hm, by simp [hs.start], ?_, by simp [hs.minEvaluated], hs.best, hs.improves⟩
    intro l' hl'
    rcases List.mem_cons.1 hl' with rfl | h'
    · exact Or.inr ⟨hl, lt_of_lt_of_le hlt hs.max⟩
    · exact hs.window l' h'
  induction fuel generalizing s with
  | zero =>
    rw [widen] at h
    split at h
    · simp at h
    · rename_i hlt
      simp only [Option.some.injEq] at h
      subst h
      exact ⟨hi', hl, by omega, rfl, Or.inl rfl, rfl⟩
  | succ fuel ih =>
    rw [widen] at h
    by_cases hlt : s.length < s.maxLength
    · rw [if_pos hlt] at h
      by_cases hr : s.minRuntime < runtime s.length
      · simp only [hr, if_true] at h
        have hinv := upd s hi' hl hlt s.length s.length (by have := hi'.max; omega)
        -- the loop ends here
        have ht : t = { s with maxLength := s.length, evaluated := s.length :: s.evaluated } := by
          cases fuel with
          | zero => rw [widen] at h; simpa using h.symm
          | succ f => rw [widen] at h; simpa using h.symm
        subst ht
        exact ⟨hinv, hl, le_refl _, rfl, Or.inr ⟨by simp, hl, hr, rfl⟩, rfl⟩
      · simp only [hr, if_false] at h
        obtain ⟨h1, h2, h3, h4, h5, h6⟩ := ih _ (upd s hi' hl hlt s.maxLength (s.length * 2) hi'.max) (by simp; omega) h
        exact ⟨h1, h2, h3, h4, h5, h6⟩
    · rw [if_neg hlt] at h
      simp only [Option.some.injEq] at h
      subst h
      exact ⟨hi', hl, by omega, rfl, Or.inl rfl, rfl⟩

theorem narrow_inv (runtime : Int → ℚ) (lo hi : Int) (fuel : Nat) (s t : Search) (hi' : Inv runtime lo hi s)
    (h : narrow runtime fuel s = some t) :
    Inv runtime lo hi t ∧ t.maxLength - t.minLength ≤ 10 ∧
      ((s.maxLength - s.minLength ≤ 10 ∧ t = s) ∨
       (10 < s.maxLength - s.minLength ∧ t.length ∈ t.evaluated ∧
        (t.length = t.minLength ∨ t.length = t.maxLength) ∧ t.length ≤ t.maxLength ∧ lo < t.length ∧ t.minLength ≤ t.length)) := by
  induction fuel generalizing s with
  | zero =>
    rw [narrow] at h
    split at h
    · simp at h
    · simp only [Option.some.injEq] at h
      subst h
      exact ⟨hi', by omega, Or.inl ⟨by omega, rfl⟩⟩
  | succ fuel ih =>
    rw [narrow] at h
    by_cases hw : 10 < s.maxLength - s.minLength
    · rw [if_pos hw] at h
      have hmin := hi'.min
      have hmax := hi'.max
      set l := (s.maxLength - s.minLength) / 2 + s.minLength with hl
      have hl1 : s.minLength < l := by omega
      have hl2 : l < s.maxLength := by omega
      have hwin : ∀ l' ∈ l :: s.evaluated, l' = lo ∨ (lo < l' ∧ l' < hi) := by
        intro l' hl'
        rcases List.mem_cons.1 hl' with rfl | h'
        · exact Or.inr ⟨by omega, by omega⟩
        · exact hi'.window l' h'
      by_cases hr : runtime l ≤ s.minRuntime
      · simp only [hr, if_true] at h
        have hinv : Inv runtime lo hi
            { s with length := l, evaluated := l :: s.evaluated, minRuntime := runtime l, minLength := l } :=
          ⟨by simp; omega, hmax, by simp [hi'.start], hwin, by simp, rfl, le_trans hr hi'.improves⟩
        obtain ⟨h1, h2, h3⟩ := ih _ hinv h
        refine ⟨h1, h2, Or.inr ⟨hw, ?_⟩⟩
        rcases h3 with ⟨_, rfl⟩ | h3
        · exact ⟨by simp, Or.inl rfl, by simp; omega, by simp; omega, le_refl _⟩
        · exact h3.2
      · simp only [hr, if_false] at h
        have hinv : Inv runtime lo hi
            { s with length := l, evaluated := l :: s.evaluated, maxLength := l } :=
          ⟨hi'.min, by simp; omega, by simp [hi'.start], hwin, by simp [hi'.minEvaluated], hi'.best, hi'.improves⟩
        obtain ⟨h1, h2, h3⟩ := ih _ hinv h
        refine ⟨h1, h2, Or.inr ⟨hw, ?_⟩⟩
        rcases h3 with ⟨_, rfl⟩ | h3
        · exact ⟨by simp, Or.inr rfl, by simp, by simp; omega, by simp; omega⟩
        · exact h3.2
    · rw [if_neg hw] at h
      simp only [Option.some.injEq] at h
      subst h
      exact ⟨hi', by omega, Or.inl ⟨by omega, rfl⟩⟩

theorem start_inv (runtime : Int → ℚ) (lo hi : Int) : Inv runtime lo hi (startSearch runtime lo hi) :=
  ⟨le_refl _, le_refl _, by simp [startSearch], by simp [startSearch], by simp [startSearch], rfl, le_refl _⟩

theorem search_inv (runtime : Int → ℚ) (lo hi : Int) (fuel : Nat) (o : Outcome) (hpos : 0 < lo)
    (h : search runtime lo hi fuel = some o) :
    ∃ s t, Inv runtime lo hi s ∧ Inv runtime lo hi t ∧ lo < s.length ∧ s.maxLength ≤ s.length ∧
      s.minLength = lo ∧ s.minRuntime = runtime lo ∧
      (s.maxLength = hi ∨ (s.maxLength ∈ s.evaluated ∧ lo < s.maxLength ∧
        runtime lo < runtime s.maxLength ∧ s.length = s.maxLength)) ∧
      t.maxLength - t.minLength ≤ 10 ∧
      ((s.maxLength - s.minLength ≤ 10 ∧ t = s) ∨
       (10 < s.maxLength - s.minLength ∧ t.length ∈ t.evaluated ∧
        (t.length = t.minLength ∨ t.length = t.maxLength) ∧ t.length ≤ t.maxLength ∧ lo < t.length ∧ t.minLength ≤ t.length)) ∧
      o = ⟨if t.length ≤ t.maxLength then some t.length else none, t.evaluated⟩ := by
  unfold search at h
  rw [Option.bind_eq_some_iff] at h
  obtain ⟨s, hs, h⟩ := h
  rw [Option.map_eq_some_iff] at h
  obtain ⟨t, ht, h⟩ := h
  obtain ⟨h1, h2, h3, h4, h5, h6⟩ :=
    widen_inv runtime lo hi fuel _ s (start_inv runtime lo hi) (by simp [startSearch]; omega) hpos hs
  obtain ⟨g1, g2, g3⟩ := narrow_inv runtime lo hi fuel s t h1 ht
  exact ⟨s, t, h1, g1, h2, h3, h4, h6, h5, g2, g3, h.symm⟩

/-- C36: the search terminates for every runtime function and positive minimum length, within a number of
iterations bounded by the size of the window. -/
theorem C36_terminates (runtime : Int → ℚ) (lo hi : Int) (hpos : 0 < lo) (fuel : Nat)
    (hf : (hi - lo).toNat ≤ fuel) : ∃ o, search runtime lo hi fuel = some o := by
  obtain ⟨s, hs⟩ := widen_terminates runtime fuel (startSearch runtime lo hi) (by simp [startSearch]; omega)
    (by simp [startSearch]; omega)
  obtain ⟨h1, _, _, h4, _, _⟩ :=
    widen_inv runtime lo hi fuel _ s (start_inv runtime lo hi) (by simp [startSearch]; omega) hpos hs
  have := h1.max
  obtain ⟨t, ht⟩ := narrow_terminates runtime fuel s (by rw [h4]; simp [startSearch]; omega)
  exact ⟨_, by unfold search; rw [hs, Option.bind_some, ht]; rfl⟩

/-- C36: without positive minimum length the search does not end: zero stays zero. -/
theorem C36_zero_never_returns (runtime : Int → ℚ) (hi : Int) (hhi : 0 < hi) (fuel : Nat) :
    search runtime 0 hi fuel = none := by
  have : ∀ n s, s.length = 0 → s.maxLength = hi → s.minRuntime = runtime 0 → widen runtime n s = none := by
    intro n
    induction n with
    | zero => intro s h1 h2 _; rw [widen, if_pos (by omega)]
    | succ n ih =>
      intro s h1 h2 h3
      rw [widen, if_pos (by omega)]
      simp only [h1, h3, lt_irrefl, if_false]
      exact ih _ (by simp) h2 rfl
  unfold search
  rw [this fuel _ (by simp [startSearch]) rfl rfl]
  rfl

/-- C36: only the minimum length and lengths strictly inside the window are simulated. -/
theorem C36_window (runtime : Int → ℚ) (lo hi : Int) (hpos : 0 < lo) (fuel : Nat) (o : Outcome)
    (h : search runtime lo hi fuel = some o) : lo ∈ o.evaluated ∧ ∀ l ∈ o.evaluated, l = lo ∨ (lo < l ∧ l < hi) := by
  obtain ⟨s, t, _, ht, _, _, _, _, _, _, _, rfl⟩ := search_inv runtime lo hi fuel o hpos h
  exact ⟨ht.start, ht.window⟩

/-- C36 does not hold for the reported length: with a window from 5 to 15, 15 is printed without having been
simulated, for every runtime function. -/
theorem C36_negation (runtime : Int → ℚ) : search runtime 5 15 0 = some ⟨some 15, [5]⟩ := by
  simp [search, widen, narrow, startSearch]

/-- C36, partial: if the window is larger than ten, a reported length was simulated and lies inside the window.
Smaller windows are missing (`C36_negation`). -/
theorem C36_reported_partial (runtime : Int → ℚ) (lo hi : Int) (hpos : 0 < lo) (fuel : Nat) (o : Outcome)
    (hw : 10 < hi - lo) (h : search runtime lo hi fuel = some o) (l : Int) (hl : o.printed = some l) :
    l ∈ o.evaluated ∧ lo < l ∧ l < hi := by
  obtain ⟨s, t, hs, ht, h1, h2, h3, _, h5, h6, h7, rfl⟩ := search_inv runtime lo hi fuel o hpos h
  simp only at hl ⊢
  split at hl
  · rename_i hle
    simp only [Option.some.injEq] at hl
    subst hl
    have key : t.length ∈ t.evaluated ∧ lo < t.length := by
      rcases h7 with ⟨h8, rfl⟩ | h8
      · rcases h5 with h5 | h5
        · omega
        · rw [h5.2.2.2]; exact ⟨h5.1, h5.2.1⟩
      · exact ⟨h8.2.1, h8.2.2.2.2.1⟩
    refine ⟨key.1, key.2, ?_⟩
    rcases ht.window _ key.1 with h9 | h9
    · omega
    · exact h9.2
  · simp at hl

theorem widen_power (runtime : Int → ℚ) (lo hi : Int) : ∀ fuel s t, widen runtime fuel s = some t → s.maxLength ≤ hi →
    (s.maxLength = hi → ∃ k : Nat, s.length = 3 * lo * 2 ^ k) → t.maxLength = hi → ∃ k : Nat, t.length = 3 * lo * 2 ^ k := by
  intro fuel
  induction fuel with
  | zero =>
    intro s t h _ h2 h3
    simp only [widen] at h
    split at h
    · simp at h
    · simp only [Option.some.injEq] at h
      subst h
      exact h2 h3
  | succ fuel ih =>
    intro s t h h1 h2 h3
    simp only [widen] at h
    split at h
    · rename_i hl
      split at h
      · exact ih _ t h (by simp only; omega) (by simp only; omega) h3
      · refine ih _ t h h1 (fun h4 => ?_) h3
        obtain ⟨k, hk⟩ := h2 h4
        exact ⟨k + 1, by simp only; rw [hk, pow_succ, mul_assoc]⟩
    · simp only [Option.some.injEq] at h
      subst h
      exact h2 h3

/-- C36: exactly for which windows every reported length was simulated, whatever the runtimes are: not if the window is at most ten wide and
its upper end is reached from three times the lower end by doubling. -/
theorem C36_reported_iff (lo hi : Int) (hpos : 0 < lo) :
    (∀ runtime fuel o l, search runtime lo hi fuel = some o → o.printed = some l → l ∈ o.evaluated) ↔
      ¬ (hi - lo ≤ 10 ∧ ∃ k : Nat, hi = 3 * lo * 2 ^ k) := by
  constructor
  · rintro h ⟨hw, k, hk⟩
    have hlo : lo ≤ 5 := by
      have : (1 : Int) ≤ 2 ^ k := one_le_pow₀ (by norm_num)
      nlinarith
    have hk' : k = 0 ∨ k = 1 := by
      rcases k with _ | _ | k
      · exact .inl rfl
      · exact .inr rfl
      · exfalso
        have : (1 : Int) ≤ 2 ^ k := one_le_pow₀ (by norm_num)
        rw [pow_succ, pow_succ] at hk
        nlinarith
    rcases hk' with rfl | rfl
    · simp only [pow_zero, mul_one] at hk
      have e : search (fun _ => 0) lo hi 0 = some ⟨some (lo * 3), [lo]⟩ := by
        subst hk
        have : lo = 1 ∨ lo = 2 ∨ lo = 3 ∨ lo = 4 ∨ lo = 5 := by omega
        rcases this with rfl | rfl | rfl | rfl | rfl <;> simp [search, widen, narrow, startSearch]
      have := h _ _ _ _ e rfl
      simp only [List.mem_singleton] at this
      omega
    · simp only [pow_one] at hk
      have e : search (fun _ => 0) lo hi 1 = some ⟨some (lo * 3 * 2), [lo * 3, lo]⟩ := by
        subst hk
        have : lo = 1 ∨ lo = 2 := by omega
        rcases this with rfl | rfl <;> simp [search, widen, narrow, startSearch]
      have := h _ _ _ _ e rfl
      simp only [List.mem_cons, List.not_mem_nil, or_false] at this
      omega
  · intro hn runtime fuel o l h hl
    by_cases hw : 10 < hi - lo
    · exact (C36_reported_partial runtime lo hi hpos fuel o hw h l hl).1
    · have h0 := h
      unfold search at h
      rw [Option.bind_eq_some_iff] at h
      obtain ⟨s, hs, h⟩ := h
      rw [Option.map_eq_some_iff] at h
      obtain ⟨t, ht, rfl⟩ := h
      obtain ⟨h1, h2, h3, h4, h5, h6⟩ :=
        widen_inv runtime lo hi fuel _ s (start_inv runtime lo hi) (by simp [startSearch]; omega) hpos hs
      have hmax := h1.max
      have hp := widen_power runtime lo hi fuel _ s hs (le_refl _) (fun _ => ⟨0, by simp [startSearch, mul_comm]⟩)
      have hst : t = s := by
        obtain ⟨-, -, g⟩ := narrow_inv runtime lo hi fuel s t h1 ht
        have h4' : s.minLength = lo := h4
        rcases g with g | g
        · exact g.2
        · omega
      subst hst
      simp only at hl ⊢
      split at hl
      · rename_i hle
        simp only [Option.some.injEq] at hl
        subst hl
        rcases h5 with h5 | h5
        · have h5' : t.maxLength = hi := h5
          obtain ⟨k, hk⟩ := hp h5'
          exact absurd ⟨by omega, k, by omega⟩ hn
        · rw [h5.2.2.2]; exact h5.1
      · simp at hl

/-- C62 does not hold: the printed length can be slower than the minimum length. -/
theorem C62_negation : ∃ (runtime : Int → ℚ) (o : Outcome) (l : Int), search runtime 4 100 100 = some o ∧
    o.printed = some l ∧ l ∈ o.evaluated ∧ runtime 4 < runtime l := by
  refine ⟨fun l => if l ≤ 10 then 1 else 2, ⟨some 12, [12, 4]⟩, 12, ?_, rfl, by simp, by norm_num⟩
  decide +kernel

/-- C62, partial: the printed length is not slower than the minimum length, or it lies at most ten above a simulated
length that is not slower. Missing: the printed length itself can be the slower end (`C62_negation`). -/
theorem C62_close_partial (runtime : Int → ℚ) (lo hi : Int) (hpos : 0 < lo) (fuel : Nat) (o : Outcome)
    (h : search runtime lo hi fuel = some o) (l : Int) (hl : o.printed = some l) :
    ∃ l' ∈ o.evaluated, runtime l' ≤ runtime lo ∧ lo ≤ l' ∧ l' ≤ l ∧ l ≤ l' + 10 := by
  obtain ⟨s, t, hs, ht, h1, h2, h3, h4, h5, h6, h7, rfl⟩ := search_inv runtime lo hi fuel o hpos h
  simp only at hl ⊢
  split at hl
  · rename_i hle
    simp only [Option.some.injEq] at hl
    subst hl
    refine ⟨t.minLength, ht.minEvaluated, ?_, ht.min, ?_, by omega⟩
    · rw [← ht.best]; exact ht.improves
    · rcases h7 with ⟨_, rfl⟩ | h8
      · rw [h3]; omega
      · exact h8.2.2.2.2.2
  · simp at hl

/-- Runtime 1 up to length 50, then 2; window 10 to 200. -/
example : search (fun l => if l ≤ 50 then 1 else 2) 10 200 10 = some ⟨some 53, [53, 47, 35, 60, 30, 10]⟩ := by
  decide +kernel

end Verif.Tile
