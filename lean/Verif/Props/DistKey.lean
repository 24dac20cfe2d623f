import Verif.Lemmas.DistKey

/-!
C84: the order of symbolic reuse distances.
-/

namespace Verif.DistKey

open Verif.Spec

/-- The statement holds for all sufficiently large sizes (all symbols have the same value). -/
def ForLarge (P : Int → Prop) : Prop := ∃ N0, ∀ N ≥ N0, P N

/-! ### Helper lemmas -/

theorem forLarge_and {P Q : Int → Prop} (h1 : ForLarge P) (h2 : ForLarge Q) : ForLarge fun N => P N ∧ Q N := by
  obtain ⟨a, ha⟩ := h1
  obtain ⟨b, hb⟩ := h2
  exact ⟨max a b, fun N hN => ⟨ha N (by omega), hb N (by omega)⟩⟩

/-- A distance that is not negative for large sizes has a key made of its coefficients, the first of which is positive,
or of a single number. -/
theorem key_coeffs (p : Poly) (k : Key) (h : distKey (.poly p) = some k)
    (hp : ForLarge fun N => 0 ≤ value (fun _ => N) p) :
    ∃ c cs, k = some (entries (c :: cs)) ∧ (cs ≠ [] → 0 < c) ∧ ∀ N, value (fun _ => N) p = hval N (c :: cs) := by
  rcases distKey_poly p k h with ⟨c, hk, hv⟩ | ⟨c, cs, hk, hc, hcs, hv⟩
  · refine ⟨c.natAbs, [], hk, by simp, fun N => ?_⟩
    obtain ⟨N0, h0⟩ := hp
    have := h0 N0 (le_refl _)
    simp only [hv] at this
    rw [hv]
    simp only [hval, List.length_nil, pow_zero, mul_one, add_zero]
    omega
  · refine ⟨c, cs, hk, fun _ => ?_, hv⟩
    by_contra hneg
    have hc' : 0 < -c := by omega
    obtain ⟨N1, h1⟩ := hval_pos (-c) (List.zipWith (· - ·) (cs.map fun _ => 0) cs) hc'
    obtain ⟨N0, h0⟩ := hp
    have a := h1 (max N0 N1) (by omega)
    have b := h0 (max N0 N1) (by omega)
    simp only [hv] at b
    have e := hval_sub (max N0 N1) (c :: cs) (0 :: cs.map fun _ => 0) (by simp)
    rw [List.zipWith_cons_cons] at e
    have z : ∀ n : Nat, hval (max N0 N1) (List.replicate n (0 : Int)) = 0 := by
      intro n
      induction n with
      | zero => rfl
      | succ n ih => simp [List.replicate_succ, hval, ih]
    have z0 : hval (max N0 N1) (0 :: cs.map fun _ => 0) = 0 := by simp [hval, z]
    rw [z0, zero_sub, zero_sub] at e
    rw [e] at a
    omega

theorem lt_of_keyLt (a b : Int) (as bs : List Int) (hb : bs ≠ [] → 0 < b)
    (h : tuplesLt (entries (a :: as)) (entries (b :: bs)) = true) :
    ForLarge fun N => hval N (a :: as) < hval N (b :: bs) := by
  rw [tuplesLt_entries] at h
  rcases h with h | ⟨hl, h⟩
  · have hne : bs ≠ [] := by intro e; subst e; simp at h
    exact hval_degree (a :: as) b bs (hb hne) (by simp only [List.length_cons]; omega)
  · exact hval_lex (a :: as) (b :: bs) (by simpa using hl) h

theorem keyLt_total (a b : Int) (as bs : List Int) :
    tuplesLt (entries (a :: as)) (entries (b :: bs)) = true ∨ a :: as = b :: bs ∨
      tuplesLt (entries (b :: bs)) (entries (a :: as)) = true := by
  rw [tuplesLt_entries, tuplesLt_entries]
  rcases lt_trichotomy as.length bs.length with h | h | h
  · exact Or.inl (Or.inl h)
  · rcases lex_total (a :: as) (b :: bs) (by simpa using h) with h' | h' | h'
    · exact Or.inl (Or.inr ⟨h, h'⟩)
    · exact Or.inr (Or.inl h')
    · exact Or.inr (Or.inr (Or.inr ⟨h.symm, h'⟩))
  · exact Or.inr (Or.inr (Or.inl h))

theorem entries_inj (as bs : List Int) (h : entries as = entries bs) : as = bs := by
  induction as generalizing bs with
  | nil => cases bs with
    | nil => rfl
    | cons b bs => simp [entries] at h
  | cons a as ih => cases bs with
    | nil => simp [entries] at h
    | cons b bs =>
      simp only [entries, List.cons.injEq, Prod.mk.injEq] at h
      rw [h.1.2, ih bs h.2]

/-! ### C84 -/

/-- C84, partial: of two distances that are not negative for large sizes, the one with the smaller key is the smaller one
for all sufficiently large sizes, and conversely; all symbols have the same value. Missing: different values
(`C84_negation_symbols`) and negative distances (`C84_negation_sign`). -/
theorem C84_order_partial (p q : Poly) (kp kq : Key) (hkp : distKey (.poly p) = some kp) (hkq : distKey (.poly q) = some kq)
    (hp : ForLarge fun N => 0 ≤ value (fun _ => N) p) (hq : ForLarge fun N => 0 ≤ value (fun _ => N) q) :
    keyLt kp kq = true ↔ ForLarge fun N => value (fun _ => N) p < value (fun _ => N) q := by
  obtain ⟨a, as, rfl, ha, hav⟩ := key_coeffs p kp hkp hp
  obtain ⟨b, bs, rfl, hb, hbv⟩ := key_coeffs q kq hkq hq
  simp only [keyLt, hav, hbv]
  constructor
  · exact lt_of_keyLt a b as bs hb
  · intro hlt
    rcases keyLt_total a b as bs with h | h | h
    · exact h
    · rw [h] at hlt
      obtain ⟨N0, h0⟩ := hlt
      exact absurd (h0 N0 (le_refl _)) (lt_irrefl _)
    · obtain ⟨N0, h0⟩ := forLarge_and hlt (lt_of_keyLt b a bs as ha h)
      have := h0 N0 (le_refl _)
      omega

/-- C84, partial: equal keys mean equal distances, under the same conditions. -/
theorem C84_equal_partial (p q : Poly) (kp kq : Key) (hkp : distKey (.poly p) = some kp) (hkq : distKey (.poly q) = some kq)
    (hp : ForLarge fun N => 0 ≤ value (fun _ => N) p) (hq : ForLarge fun N => 0 ≤ value (fun _ => N) q) :
    kp = kq ↔ ∀ N, value (fun _ => N) p = value (fun _ => N) q := by
  obtain ⟨a, as, rfl, ha, hav⟩ := key_coeffs p kp hkp hp
  obtain ⟨b, bs, rfl, hb, hbv⟩ := key_coeffs q kq hkq hq
  constructor
  · intro h N
    simp only [Option.some.injEq] at h
    rw [hav, hbv, entries_inj _ _ h]
  · intro h
    rcases keyLt_total a b as bs with h' | h' | h'
    · obtain ⟨N0, h0⟩ := lt_of_keyLt a b as bs hb h'
      have := h0 N0 (le_refl _)
      simp only [← hav, ← hbv, h N0] at this
      omega
    · rw [h']
    · obtain ⟨N0, h0⟩ := lt_of_keyLt b a bs as ha h'
      have := h0 N0 (le_refl _)
      simp only [← hav, ← hbv, h N0] at this
      omega

/-- C84: the infinite distance has the largest key. -/
theorem C84_infinite (p : Poly) (k kinf : Key) (h : distKey (.poly p) = some k) (hi : distKey .inf = some kinf) :
    keyLt k kinf = true ∧ keyLt kinf k = false := by
  simp only [distKey, Option.some.injEq] at hi
  subst hi
  rcases distKey_poly p k h with ⟨c, rfl, _⟩ | ⟨c, cs, rfl, _⟩ <;> exact ⟨rfl, rfl⟩

/-- N² + 23 and 100*N in the symbol N. -/
example : distKey (.poly [(1, [2]), (23, [0])]) = some (some [(2, 1), (1, 0), (0, 23)]) ∧
    distKey (.poly [(100, [1])]) = some (some [(1, 100), (0, 0)]) ∧
    keyLt (some [(1, 100), (0, 0)]) (some [(2, 1), (1, 0), (0, 23)]) = true ∧
    (ForLarge fun N => 0 ≤ value (fun _ => N) [(1, [2]), (23, [0])]) ∧
    (ForLarge fun N => 0 ≤ value (fun _ => N) [(100, [1])]) := by
  refine ⟨by decide +kernel, by decide +kernel, by decide +kernel, ⟨0, fun N hN => ?_⟩, ⟨0, fun N hN => ?_⟩⟩
  · simp only [value, powers]; nlinarith
  · simp only [value, powers]; nlinarith

/-- C84, negation: with several symbols the key does not tell which distance is larger. For M (second symbol) and 2*N
(first symbol) the order depends on the sizes, M*N and N² even have the same key. -/
theorem C84_negation_symbols :
    (∃ p q kp kq, distKey (.poly p) = some kp ∧ distKey (.poly q) = some kq ∧ keyLt kp kq = true ∧
      ∀ N0 : Int, ∃ σ : Nat → Int, (∀ i, N0 ≤ σ i) ∧ value σ q < value σ p) ∧
    (∃ p q k, distKey (.poly p) = some k ∧ distKey (.poly q) = some k ∧
      ∀ N0 : Int, ∃ σ : Nat → Int, (∀ i, N0 ≤ σ i) ∧ value σ q < value σ p) := by
  constructor
  · refine ⟨[(1, [0, 1])], [(2, [1, 0])], some [(1, 1), (0, 0)], some [(1, 2), (0, 0)], by decide +kernel, by decide +kernel,
      by decide +kernel, fun N0 => ⟨fun i => if i = 0 then max N0 1 else 3 * max N0 1, fun i => ?_, ?_⟩⟩
    · dsimp only
      split <;> omega
    · simp [value, powers]
  · refine ⟨[(1, [1, 1])], [(1, [2, 0])], some [(2, 1), (1, 0), (0, 0)], by decide +kernel, by decide +kernel,
      fun N0 => ⟨fun i => if i = 0 then max N0 1 else 2 * max N0 1, fun i => ?_, ?_⟩⟩
    · dsimp only
      split <;> omega
    · simp only [value, powers]
      have : 1 ≤ max N0 1 := by omega
      generalize max N0 1 = x at *
      norm_num
      nlinarith

/-- C84, negation: a negative distance is sorted by its degree, a negative number by its absolute value. -/
theorem C84_negation_sign :
    (∃ p q kp kq, distKey (.poly p) = some kp ∧ distKey (.poly q) = some kq ∧ keyLt kp kq = true ∧
      ∀ N ≥ 0, value (fun _ => N) q < value (fun _ => N) p) ∧
    distKey (.poly [(-3, [0])]) = distKey (.poly [(3, [0])]) := by
  refine ⟨⟨[(5, [0])], [(-1, [1])], some [(0, 5)], some [(1, -1), (0, 0)], by decide +kernel, by decide +kernel,
    by decide +kernel, fun N hN => ?_⟩, by decide +kernel⟩
  simp only [value, powers, pow_zero, pow_one]
  omega

/-- C84, negation: distances in which all symbols cancel when they are replaced by one, as M*N - N² + 5, have no key
(the assertion of line 64 fails). -/
theorem C84_negation_rejected : distKey (.poly [(1, [1, 1]), (-1, [2, 0]), (5, [0, 0])]) = none := by decide +kernel

end Verif.DistKey
