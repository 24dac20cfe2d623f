import Verif.Spec.BestPrefix
import Verif.Props.UnitText

/-!
C166: the largest prefix that fits is chosen (`good_prefix` of `kerncraft/prefixedunit.py:58-91`).
-/

namespace Verif.Units

open Verif.Spec

theorem nearest_hundredths (x : ℚ) : Nearest (hundredths x) (x * 100) := by
  have h1 := Int.floor_le (x * 100)
  have h2 := Int.lt_floor_add_one (x * 100)
  unfold hundredths Nearest
  simp only
  split_ifs with a b c
  · left; rw [abs_lt]; constructor <;> linarith
  · left; rw [abs_lt]; push_cast; constructor <;> linarith
  · right
    have : x * 100 - ⌊x * 100⌋ = 1 / 2 := le_antisymm (not_lt.1 b) (not_lt.1 a)
    refine ⟨?_, Int.even_iff.2 c⟩
    rw [abs_of_nonpos (by linarith)]; linarith
  · right
    have : x * 100 - ⌊x * 100⌋ = 1 / 2 := le_antisymm (not_lt.1 b) (not_lt.1 a)
    refine ⟨?_, Int.even_iff.2 (by omega)⟩
    push_cast
    rw [abs_of_nonneg (by linarith)]; linarith

theorem nearest_unique (y z : ℤ) (x : ℚ) (hy : Nearest y x) (hz : Nearest z x) : y = z := by
  have hy' : |(y : ℚ) - x| ≤ 1 / 2 := by rcases hy with h | h; exacts [h.le, h.1.le]
  have hz' : |(z : ℚ) - x| ≤ 1 / 2 := by rcases hz with h | h; exacts [h.le, h.1.le]
  have a := abs_le.1 hy'
  have b := abs_le.1 hz'
  have l1 : (y : ℚ) ≤ z + 1 := by linarith
  have l2 : (z : ℚ) ≤ y + 1 := by linarith
  have m1 : y ≤ z + 1 := by exact_mod_cast l1
  have m2 : z ≤ y + 1 := by exact_mod_cast l2
  rcases Int.lt_trichotomy y z with h | h | h
  · have he : z = y + 1 := by omega
    have hq : (z : ℚ) = y + 1 := by exact_mod_cast he
    rcases hy with h' | ⟨_, ey⟩
    · have := abs_lt.1 h'; exfalso; linarith
    · rcases hz with h' | ⟨_, ez⟩
      · have := abs_lt.1 h'; exfalso; linarith
      · rw [Int.even_iff] at ey ez; omega
  · exact h
  · have he : y = z + 1 := by omega
    have hq : (y : ℚ) = z + 1 := by exact_mod_cast he
    rcases hy with h' | ⟨_, ey⟩
    · have := abs_lt.1 h'; exfalso; linarith
    · rcases hz with h' | ⟨_, ez⟩
      · have := abs_lt.1 h'; exfalso; linarith
      · rw [Int.even_iff] at ey ez; omega

theorem fits_iff (base e f : ℚ) :
    Fits base e f ↔ |round2 (base / f) * f - base| ≤ e * |base| ∧ 9 / 10 ≤ |round2 (base / f)| := by
  rw [round2_eq]
  constructor
  · rintro ⟨z, h1, h2, h3⟩
    rw [nearest_unique _ _ _ (nearest_hundredths (base / f)) h1]
    exact ⟨h2, h3⟩
  · rintro ⟨h2, h3⟩
    exact ⟨_, nearest_hundredths _, h2, h3⟩

theorem fold_largest (A : ℚ → Bool) (l : List (List Char × ℚ)) (g : List Char × ℚ) :
    let r := l.foldl (fun (g : List Char × ℚ) kv => if A kv.2 && !decide (kv.2 < g.2) then kv else g) g
    g.2 ≤ r.2 ∧ ∀ kv ∈ l, A kv.2 = true → kv.2 ≤ r.2 := by
  induction l generalizing g with
  | nil => simp
  | cons a l ih =>
    simp only [List.foldl_cons]
    obtain ⟨h1, h2⟩ := ih (if A a.2 && !decide (a.2 < g.2) then a else g)
    by_cases hA : A a.2 = true <;> by_cases hl : a.2 < g.2
    · rw [if_neg (by simp [hl])] at h1 h2 ⊢
      refine ⟨h1, fun kv hk hkA => ?_⟩
      rcases List.mem_cons.1 hk with rfl | hk
      · exact hl.le.trans h1
      · exact h2 kv hk hkA
    · rw [if_pos (by simp [hA, not_lt.1 hl])] at h1 h2 ⊢
      refine ⟨(not_lt.1 hl).trans h1, fun kv hk hkA => ?_⟩
      rcases List.mem_cons.1 hk with rfl | hk
      · exact h1
      · exact h2 kv hk hkA
    all_goals
      rw [if_neg (by simp [hA])] at h1 h2 ⊢
      refine ⟨h1, fun kv hk hkA => ?_⟩
      rcases List.mem_cons.1 hk with rfl | hk
      · exact absurd hkA hA
      · exact h2 kv hk hkA

/-- No prefix that was found good is larger than the chosen one. -/
theorem goodPrefix_largest (base e f : ℚ) (hf : factor? (goodPrefix base e) = some f) (p : List Char) (f' : ℚ)
    (hp : factor? p = some f') (h1 : |round2 (base / f') * f' - base| ≤ base * e)
    (h2 : 9 / 10 ≤ |round2 (base / f')|) : f' ≤ f := by
  have key := fold_largest (fun v => !decide (base * e < |round2 (base / v) * v - base|) &&
    !decide (|round2 (base / v)| < 9 / 10)) prefixes ([], 1)
  simp only at key
  have hm : (p, f') ∈ prefixes := by
    unfold factor? at hp
    obtain ⟨q, r, h, _⟩ := List.lookup_eq_some_iff.1 hp
    rw [h]; simp
  have hle := key.2 (p, f') hm (by simp [not_lt.2 h1, not_lt.2 h2])
  have hg : ∃ g, prefixes.foldl (fun (g : List Char × ℚ) kv => if goodFor base e kv.2 g.2 then kv else g) ([], 1) = g ∧
      g ∈ prefixes := by
    refine ⟨_, rfl, ?_⟩
    apply foldl_mem prefixes _ (fun g : List Char × ℚ => g ∈ prefixes)
    · simp [prefixes]
    · intro b a hb ha
      split <;> assumption
  obtain ⟨g, hg, hgm⟩ := hg
  have hgf : f = g.2 := by
    have e1 : goodPrefix base e = g.1 := by unfold goodPrefix; rw [hg]
    rw [e1] at hf
    simp only [prefixes, List.mem_cons, List.not_mem_nil, or_false] at hgm
    rcases hgm with h | h | h | h | h | h | h | h | h <;> rw [h] at hf ⊢ <;>
      (simp only [factor?, prefixes] at hf; revert hf; simp [List.lookup]; intro h; exact h.symm)
  rw [hgf, ← hg]
  exact hle

/-- C166 for the prefix of a text: a quantity that is not negative is written with the largest prefix that fits with an
error of at most one percent, or with none if none fits. Missing: negative quantities (`C166_negative`). -/
theorem C166_text_partial (q : Unit) (h0 : 0 ≤ q.base) :
    ∃ r f, str 2 q = some (showPlain r) ∧ r.base = q.base ∧ r.unit = q.unit ∧ factor? r.pre = some f ∧
      (r.pre = [] ∨ Fits q.base (1 / 100) f) ∧
      ∀ p f', factor? p = some f' → Fits q.base (1 / 100) f' → f' ≤ f := by
  obtain ⟨r, h1, h2, h3, h4⟩ := str_eq q
  obtain ⟨f, hf, _, hg⟩ := goodPrefix_good q.base (1 / 100)
  refine ⟨r, f, h1, h2, h3, by rw [h4, hf], ?_, ?_⟩
  · rw [h4, fits_iff, abs_of_nonneg h0, mul_comm (1 / 100 : ℚ)]
    exact hg
  · intro p f' hp hfit
    rw [fits_iff, abs_of_nonneg h0, mul_comm (1 / 100 : ℚ)] at hfit
    exact goodPrefix_largest _ _ f hf p f' hp hfit.1 hfit.2

/-- C166 for reduced quantities, whatever their sign: the prefix is the largest one for which two decimals are exact, or
none if there is none. -/
theorem C166_reduced (q : Unit) :
    ∃ r f, reduced q = .ok r ∧ r.base = q.base ∧ r.unit = q.unit ∧ factor? r.pre = some f ∧
      (r.pre = [] ∨ Fits q.base 0 f) ∧ ∀ p f', factor? p = some f' → Fits q.base 0 f' → f' ≤ f := by
  obtain ⟨f, hf, _, hg⟩ := goodPrefix_good q.base 0
  rcases C41_with_prefix q (goodPrefix q.base 0) with ⟨h, _⟩ | ⟨r, h1, h2, h3, h4⟩
  · rw [hf] at h; simp at h
  · refine ⟨r, f, h1, h2, h3, by rw [h4, hf], ?_, ?_⟩
    · rw [h4, fits_iff, zero_mul]
      rwa [mul_zero] at hg
    · intro p f' hp hfit
      rw [fits_iff, zero_mul] at hfit
      exact goodPrefix_largest _ _ f hf p f' hp (by rw [mul_zero]; exact hfit.1) hfit.2

/-- C166: negative quantities are always written without a prefix. -/
theorem C166_negative (q : Unit) (h : q.base < 0) :
    ∃ r, str 2 q = some (showPlain r) ∧ r.value = q.base ∧ r.unit = q.unit ∧ r.pre = [] := by
  obtain ⟨r, h1, h2, h3, h4⟩ := str_eq q
  obtain ⟨f, hf, _, hg⟩ := goodPrefix_good q.base (1 / 100)
  have hp : r.pre = [] := by
    rw [h4]
    rcases hg with hg | ⟨hg, _⟩
    · exact hg
    · have := abs_nonneg (round2 (q.base / f) * f - q.base)
      exfalso; linarith
  refine ⟨r, h1, ?_, h3, hp⟩
  rw [← h2]
  simp [Unit.base, Unit.factor, hp, factor?, prefixes, List.lookup]

/-- C166 does not hold for negative quantities: `-5 kB` are written as `-5000.00 B`. -/
theorem C166_negation_negative : str 2 ⟨-5, ['k'], ['B']⟩ = some "-5000.00 B".toList ∧
    factor? ['k'] = some (10 ^ 3) ∧ Fits (-5000) (1 / 100) (10 ^ 3) := by
  refine ⟨by decide +kernel, rfl, -500, Or.inl ?_, ?_, ?_⟩ <;> norm_num [abs_of_nonneg, abs_of_neg]

/-- C166, an exact description: a negative quantity has the prefix it should have just if no prefix above one fits. -/
theorem C166_right_iff (q : Unit) (h : q.base < 0) :
    (∃ r f, str 2 q = some (showPlain r) ∧ r.base = q.base ∧ factor? r.pre = some f ∧ r.pre = goodPrefix q.base (1 / 100) ∧
      ∀ p f', factor? p = some f' → Fits q.base (1 / 100) f' → f' ≤ f) ↔
    ∀ p f', factor? p = some f' → 1 < f' → ¬ Fits q.base (1 / 100) f' := by
  have hp : goodPrefix q.base (1 / 100) = [] := by
    obtain ⟨f, hf, _, hg⟩ := goodPrefix_good q.base (1 / 100)
    rcases hg with hg | ⟨hg, _⟩
    · exact hg
    · have := abs_nonneg (round2 (q.base / f) * f - q.base)
      exfalso; linarith
  constructor
  · rintro ⟨r, f, _, _, hf, hr, hmax⟩ p f' hf' h1 hfit
    rw [hr, hp] at hf
    have : f = 1 := by
      have h' : factor? ([] : List Char) = some 1 := rfl
      rw [h'] at hf; simpa using hf.symm
    have := hmax p f' hf' hfit
    linarith
  · intro hno
    obtain ⟨r, h1, h2, _, h4⟩ := str_eq q
    refine ⟨r, 1, h1, h2, by rw [h4, hp]; rfl, h4, fun p f' hf' hfit => ?_⟩
    by_contra hlt
    exact hno p f' hf' (not_le.1 hlt) hfit

/-- Non-trivial example: 2345678 kHz fit into 2.35 GHz but not into any THz. -/
example : (0 : ℚ) ≤ (⟨2345678, ['k'], "Hz".toList⟩ : Unit).base ∧ Fits 2345678000 (1 / 100) (10 ^ 9) ∧
    str 2 ⟨2345678, ['k'], "Hz".toList⟩ = some "2.35 GHz".toList := by
  refine ⟨by decide +kernel, ⟨235, Or.inl ?_, ?_, ?_⟩, by decide +kernel⟩ <;>
    norm_num [abs_of_nonneg, abs_of_neg]

end Verif.Units
