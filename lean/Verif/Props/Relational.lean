import Verif.Model.Relational
import Mathlib.Tactic.Linarith
import Mathlib.Tactic.Ring
import Mathlib.Tactic.NormNum
import Mathlib.Tactic.Positivity

/-!
C91: rewriting a layer condition keeps its truth value.
-/

namespace Verif.Relational

/-- Value of a sum. -/
def value (σ : String → ℚ) (s : Sum) : ℚ := (s.map fun t => t.1 * (t.2.map σ).prod).sum

/-- Is the relation true? -/
def Holds (σ : String → ℚ) (r : Rel) : Prop :=
  match r.op with
  | .lt => value σ r.lhs < value σ r.rhs
  | .le => value σ r.lhs ≤ value σ r.rhs
  | .gt => value σ r.rhs < value σ r.lhs
  | .ge => value σ r.rhs ≤ value σ r.lhs
  | .eq => value σ r.lhs = value σ r.rhs
  | .ne => value σ r.lhs ≠ value σ r.rhs

theorem value_append (σ : String → ℚ) (s t : Sum) : value σ (s ++ t) = value σ s + value σ t := by simp [value]

theorem value_scale (σ : String → ℚ) (x : ℚ) (s : Sum) : value σ (scale x s) = x * value σ s := by
  unfold value scale
  induction s with
  | nil => simp
  | cons t s ih =>
    simp only [List.map_cons, List.sum_cons] at ih ⊢
    rw [ih]; ring

theorem value_split (σ : String → ℚ) (s : Sum) : value σ (symbolic s) + number s = value σ s := by
  unfold value symbolic number
  induction s with
  | nil => simp
  | cons t s ih =>
    by_cases h : t.2 = 0
    · simp [h] at ih ⊢; linarith
    · simp [h] at ih ⊢; linarith

theorem holds_congr (σ : String → ℚ) (r q : Rel) (hop : r.op = q.op) (k : ℚ) (hk : 0 < k)
    (h : value σ r.lhs - value σ r.rhs = k * (value σ q.lhs - value σ q.rhs)) : Holds σ r ↔ Holds σ q := by
  unfold Holds
  rw [hop]
  generalize value σ r.lhs = a at *
  generalize value σ r.rhs = b at *
  generalize value σ q.lhs = c at *
  generalize value σ q.rhs = d at *
  have e : a = b ↔ c = d := by
    rw [← sub_eq_zero, h, mul_eq_zero, sub_eq_zero]
    simp [hk.ne']
  have h' : b - a = k * (d - c) := by linarith
  cases q.op <;> simp only
  · rw [← sub_pos, h', ← sub_pos (b := c)]; exact mul_pos_iff_of_pos_left hk
  · rw [← sub_nonneg, h', ← sub_nonneg (b := c)]; exact mul_nonneg_iff_of_pos_left hk
  · rw [← sub_pos, h, ← sub_pos (a := c)]; exact mul_pos_iff_of_pos_left hk
  · rw [← sub_nonneg, h, ← sub_nonneg (a := c)]; exact mul_nonneg_iff_of_pos_left hk
  · exact e
  · exact not_congr e

theorem holds_move (σ : String → ℚ) (r : Rel) : Holds σ (move r) ↔ Holds σ r := by
  apply holds_congr σ (move r) r rfl 1 one_pos
  have := value_split σ r.lhs
  simp only [move, value_append]
  have e : value σ [(-number r.lhs, 0)] = -number r.lhs := by simp [value]
  rw [e]; linarith

theorem holds_divide (σ : String → ℚ) (g : ℚ) (hg : g ≠ 0) (r : Rel) : Holds σ (divide g r) ↔ Holds σ r := by
  unfold divide
  split
  · rfl
  · have hm : 0 < max g (-g) := by
      rcases lt_or_gt_of_ne hg with h | h
      · exact lt_max_of_lt_right (by linarith)
      · exact lt_max_of_lt_left h
    refine holds_congr σ ⟨scale (1 / max g (-g)) r.lhs, scale (1 / max g (-g)) r.rhs, r.op⟩ r rfl (1 / max g (-g))
      (by positivity) ?_
    simp only [value_scale]; ring

theorem holds_reversedSign (σ : String → ℚ) (r : Rel) : Holds σ (reversedSign r) ↔ Holds σ r := by
  obtain ⟨l, q, op⟩ := r
  unfold Holds reversedSign
  simp only [value_scale]
  cases op <;> simp only [Op.reversed] <;> constructor <;> intro h <;> first | linarith | (intro e; apply h; linarith)

/-- If a condition can be rewritten at all, the result is true for exactly the same values of the symbols, whatever common factor and sign sympy
finds. -/
theorem canonical_same (gcd : Sum → Sum → ℚ) (hg : ∀ a b, gcd a b ≠ 0) (sign : Sum → Option Bool) (r q : Rel)
    (h : canonical gcd sign r = .ok q) (σ : String → ℚ) : Holds σ q ↔ Holds σ r := by
  unfold canonical at h
  simp only [bind, Except.bind] at h
  split at h
  · cases h
  · simp only [Except.ok.injEq] at h
    subst h
    split
    · rw [holds_reversedSign, holds_divide σ _ (hg _ _), holds_move]
    · rw [holds_divide σ _ (hg _ _), holds_move]

/-- Only numbers in the sum. -/
def Numeric (s : Sum) : Prop := ∀ t ∈ s, t.2 = 0

theorem number_value (σ : String → ℚ) (s : Sum) (h : Numeric s) : value σ s = number s := by
  have := value_split σ s
  have e : symbolic s = [] := by
    unfold symbolic
    rw [List.filter_eq_nil_iff]
    intro t ht
    simp [h t ht]
  rw [e] at this
  simpa [value] using this.symm

theorem numeric_scale (x : ℚ) (s : Sum) (h : Numeric s) : Numeric (scale x s) := by
  intro t ht
  obtain ⟨u, hu, rfl⟩ := List.mem_map.1 ht
  exact h u hu

/-- If the right side has no symbols, the condition is always rewritten; then the right side is a number that is not negative, and the left side has no
number. -/
theorem canonical_form (gcd : Sum → Sum → ℚ) (sign : Sum → Option Bool) (r : Rel) (hr : Numeric r.rhs) :
    ∃ q, canonical gcd sign r = .ok q ∧ Numeric q.rhs ∧ (∀ σ, 0 ≤ value σ q.rhs) ∧ ∀ t ∈ q.lhs, t.2 ≠ 0 := by
  have hm : Numeric (move r).rhs := by
    intro t ht
    rcases List.mem_append.1 ht with h | h
    · exact hr t h
    · rw [List.mem_singleton.1 h]
  have hl : ∀ t ∈ (move r).lhs, t.2 ≠ 0 := by
    intro t ht
    simpa using (List.mem_filter.1 ht).2
  have hs : ∀ (x : ℚ) (s : Sum), (∀ t ∈ s, t.2 ≠ 0) → ∀ t ∈ scale x s, t.2 ≠ 0 := by
    intro x s h t ht
    obtain ⟨u, hu, rfl⟩ := List.mem_map.1 ht
    exact h u hu
  generalize hd : divide (gcd (move r).lhs (move r).rhs) (move r) = d
  have hdn : Numeric d.rhs := by
    rw [← hd]; unfold divide; split
    · exact hm
    · exact numeric_scale _ _ hm
  have hdl : ∀ t ∈ d.lhs, t.2 ≠ 0 := by
    rw [← hd]; unfold divide; split
    · exact hl
    · exact hs _ _ hl
  have hb : isNegative sign d.rhs = .ok (decide (number d.rhs < 0)) := by
    unfold isNegative
    rw [if_pos]
    rw [List.all_eq_true]
    intro t ht
    simpa using hdn t ht
  refine ⟨if decide (number d.rhs < 0) then reversedSign d else d, ?_, ?_⟩
  · simp only [canonical, hd, hb, bind, Except.bind]
  · by_cases hneg : number d.rhs < 0
    · rw [if_pos (by simpa using hneg)]
      refine ⟨numeric_scale _ _ hdn, fun σ => ?_, hs _ _ hdl⟩
      simp only [reversedSign, value_scale, number_value σ d.rhs hdn]
      linarith
    · rw [if_neg (by simpa using hneg)]
      exact ⟨hdn, fun σ => by rw [number_value σ d.rhs hdn]; linarith, hdl⟩

/-- `16*N - 24 < 40 - 8`, that is `2*N < 7` after division by 8. -/
example : ∃ q, canonical (fun _ _ => 8) (fun _ => none) ⟨[(16, {"N"}), (-24, 0)], [(40, 0), (-8, 0)], .lt⟩ = .ok q ∧
    q.lhs = [(2, {"N"})] ∧ q.rhs = [(5, 0), (-1, 0), (3, 0)] ∧ q.op = .lt :=
  ⟨_, rfl, by decide +kernel, by decide +kernel, by decide +kernel⟩
/-- A negative right side: `-2*N <= -8` becomes `N >= 4`. -/
example : ∃ q, canonical (fun _ _ => -2) (fun _ => none) ⟨[(-2, {"N"})], [(-8, 0)], .le⟩ = .ok q ∧
    q.lhs = [(1, {"N"})] ∧ q.rhs = [(4, 0), (0, 0)] ∧ q.op = .ge := ⟨_, rfl, by decide +kernel, by decide +kernel, by decide +kernel⟩

/-- With a symbol on the right side whose sign is unknown, rewriting fails. -/
theorem canonical_unknown (gcd : Sum → Sum → ℚ) (sign : Sum → Option Bool) (r : Rel)
    (hr : ∃ t ∈ r.rhs, t.2 ≠ 0) (hs : ∀ s, sign s = none) : canonical gcd sign r = .error "TypeError" := by
  obtain ⟨t, ht, hne⟩ := hr
  have hb : ∀ s : Sum, (∃ t ∈ s, t.2 ≠ 0) → isNegative sign s = .error "TypeError" := by
    rintro s ⟨u, hu, hun⟩
    unfold isNegative
    rw [if_neg]
    · rw [hs]
    · rw [List.all_eq_true]
      intro h
      exact hun (by simpa using h u hu)
  have hm : ∃ t ∈ (move r).rhs, t.2 ≠ 0 := ⟨t, List.mem_append_left _ ht, hne⟩
  have hd : ∃ t ∈ (divide (gcd (move r).lhs (move r).rhs) (move r)).rhs, t.2 ≠ 0 := by
    unfold divide; split
    · exact hm
    · obtain ⟨u, hu, hun⟩ := hm
      exact ⟨_, List.mem_map_of_mem hu, hun⟩
  simp only [canonical, hb _ hd, bind, Except.bind]

/-! ### The whole function -/

/-- Is the condition true? -/
def IsTrue (σ : String → ℚ) : Cond → Prop
  | .truth b => b = true
  | .rel r => Holds σ r

/-- Values of the symbols for which sympy rewrites (constants of kernels are positive integers). -/
def Admissible (σ : String → ℚ) : Prop := ∀ s, ∃ n : Nat, 0 < n ∧ σ s = n

/-- C91: the canonical form is true for exactly the same values of the constants, for all ways in which sympy rewrites conditions without changing
their meaning for positive integers, and for every common factor and every sign that it finds. -/
theorem C91_same_truth (rewrite : Rel → Cond) (hrw : ∀ r σ, Admissible σ → (IsTrue σ (rewrite r) ↔ Holds σ r)) (gcd : Sum → Sum → ℚ)
    (hg : ∀ a b, gcd a b ≠ 0) (sign : Sum → Option Bool) (c d : Cond) (h : canonicalRelational rewrite gcd sign c = .ok d) (σ : String → ℚ)
    (hσ : Admissible σ) : IsTrue σ d ↔ IsTrue σ c := by
  cases c with
  | truth b =>
    simp only [canonicalRelational, Except.ok.injEq] at h
    subst h
    rfl
  | rel r =>
    have hr := hrw r σ hσ
    simp only [canonicalRelational] at h
    split at h
    · cases h
    · rename_i q hq
      cases hc : canonical gcd sign q with
      | error m => rw [hc] at h; cases h
      | ok q' =>
        rw [hc] at h
        simp only [Except.map, Except.ok.injEq] at h
        subst h
        rw [hq] at hr
        exact (canonical_same gcd hg sign q q' hc σ).trans hr

/-- C91: if sympy leaves a relation with a number on the right side, the result has a number that is not negative on the right and none on the left. -/
theorem C91_form (rewrite : Rel → Cond) (gcd : Sum → Sum → ℚ) (sign : Sum → Option Bool) (r q : Rel) (hq : rewrite r = .rel q)
    (hn : Numeric q.rhs) : ∃ d, canonicalRelational rewrite gcd sign (.rel r) = .ok (.rel d) ∧ Numeric d.rhs ∧ (∀ σ, 0 ≤ value σ d.rhs) ∧
      ∀ t ∈ d.lhs, t.2 ≠ 0 := by
  obtain ⟨d, h1, h2⟩ := canonical_form gcd sign q hn
  exact ⟨d, by simp only [canonicalRelational, hq, h1]; rfl, h2⟩

/-- C91: the function ends in an error exactly for conditions that sympy rewrites to a truth value, and for those with symbols on the right side whose
sign it does not know. -/
theorem C91_rejected_iff (rewrite : Rel → Cond) (gcd : Sum → Sum → ℚ) (sign : Sum → Option Bool) (c : Cond) :
    (∃ m, canonicalRelational rewrite gcd sign c = .error m) ↔
      ∃ r, c = .rel r ∧ ((∃ b, rewrite r = .truth b) ∨ ∃ q, rewrite r = .rel q ∧ (∃ t ∈ q.rhs, t.2 ≠ 0) ∧
        sign (divide (gcd (move q).lhs (move q).rhs) (move q)).rhs = none) := by
  cases c with
  | truth b => simp [canonicalRelational]
  | rel r =>
    simp only [canonicalRelational]
    cases hr : rewrite r with
    | truth b => exact ⟨fun _ => ⟨r, rfl, Or.inl ⟨b, hr⟩⟩, fun _ => ⟨_, rfl⟩⟩
    | rel q =>
      have hall : ((divide (gcd (move q).lhs (move q).rhs) (move q)).rhs.all fun t => decide (t.2 = 0)) = true ↔ ∀ t ∈ q.rhs, t.2 = 0 := by
        have h1 : ∀ (x : ℚ) (s : Sum), (∀ t ∈ scale x s, t.2 = 0) ↔ ∀ t ∈ s, t.2 = 0 := by
          intro x s
          refine ⟨fun h t ht => ?_, fun h t ht => ?_⟩
          · exact h (x * t.1, t.2) (List.mem_map.2 ⟨t, ht, rfl⟩)
          · obtain ⟨u, hu, rfl⟩ := List.mem_map.1 ht
            exact h u hu
        have h2 : (∀ t ∈ (move q).rhs, t.2 = 0) ↔ ∀ t ∈ q.rhs, t.2 = 0 := by
          simp only [move, List.mem_append, List.mem_singleton]
          exact ⟨fun h t ht => h t (Or.inl ht), fun h t ht => ht.elim (h t) fun e => by rw [e]⟩
        rw [List.all_eq_true]
        simp only [decide_eq_true_eq]
        rw [← h2]
        unfold divide
        split
        · rfl
        · exact h1 _ _
      have hcan : (∃ m, canonical gcd sign q = .error m) ↔ (∃ t ∈ q.rhs, t.2 ≠ 0) ∧
          sign (divide (gcd (move q).lhs (move q).rhs) (move q)).rhs = none := by
        simp only [canonical, bind, Except.bind, isNegative]
        by_cases ha : ∀ t ∈ q.rhs, t.2 = 0
        · rw [if_pos (hall.2 ha)]
          simp only [reduceCtorEq, exists_false, false_iff]
          rintro ⟨⟨t, ht, hne⟩, -⟩
          exact hne (ha t ht)
        · rw [if_neg (fun h => ha (hall.1 h))]
          push Not at ha
          cases sign (divide (gcd (move q).lhs (move q).rhs) (move q)).rhs with
          | some b => simp
          | none => simpa using ha
      constructor
      · rintro ⟨m, hm⟩
        refine ⟨r, rfl, Or.inr ⟨q, hr, hcan.1 ?_⟩⟩
        cases hc : canonical gcd sign q with
        | error m => exact ⟨m, rfl⟩
        | ok d => simp only [hc] at hm; cases hm
      · rintro ⟨r', h1, h2⟩
        cases h1
        rcases h2 with ⟨b, hb⟩ | ⟨q', hq, h3⟩
        · rw [hr] at hb; cases hb
        · rw [hr] at hq
          cases hq
          obtain ⟨m, hm⟩ := hcan.2 h3
          exact ⟨m, by simp only [hm]; rfl⟩

/-- `8 > 2*N`, which sympy turns into `2*N < 8`, becomes `N < 4`. -/
example : ∃ q, canonicalRelational (fun r => .rel ⟨r.rhs, r.lhs, r.op.reversed⟩) (fun _ _ => 2) (fun _ => none)
    (.rel ⟨[(8, 0)], [(2, {"N"})], .gt⟩) = .ok (.rel q) ∧ q.lhs = [(1, {"N"})] ∧ q.op = .lt ∧ ∀ σ, value σ q.rhs = 4 :=
  ⟨_, rfl, by decide +kernel, by decide +kernel, fun σ => by norm_num [value, divide, move, scale, number]⟩

example : Admissible fun _ => 3 := fun _ => ⟨3, by norm_num, by norm_num⟩

end Verif.Relational
