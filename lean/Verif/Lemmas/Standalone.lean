import Verif.Model.Standalone
import Mathlib.Algebra.Order.Archimedean.Basic
import Mathlib.Tactic.Linarith
import Mathlib.Tactic.NormNum
import Mathlib.Tactic.Positivity
import Mathlib.Data.List.Forall2

/-!
Lemmas on the stand-alone benchmark.
-/

namespace Verif.Standalone

/-- A variable before and after adjustments: only the value may differ; linear variables grow, logarithmic ones shrink,
none passes its stop value. -/
structure Moves (v v' : Var) : Prop where
  name : v'.name = v.name
  regions : v'.regions = v.regions
  stop : v'.stop = v.stop
  adjustable : v'.adjustable = v.adjustable
  log : v'.log = v.log
  fixed : v.adjustable = false → v'.value = v.value
  lin : v.log = false → v.value ≤ v'.value ∧ (v.value ≤ v.stop → v'.value ≤ v.stop) ∧ (v.stop ≤ v.value → v'.value = v.value)
  dec : v.log = true → v'.value ≤ v.value ∧ (v.stop ≤ v.value → v.stop ≤ v'.value) ∧ (v.value ≤ v.stop → v'.value = v.value)

theorem Moves.refl (v : Var) : Moves v v :=
  ⟨rfl, rfl, rfl, rfl, rfl, fun _ => rfl, fun _ => ⟨le_refl _, fun h => h, fun _ => rfl⟩, fun _ => ⟨le_refl _, fun h => h, fun _ => rfl⟩⟩

theorem Moves.trans {a b c : Var} (h : Moves a b) (g : Moves b c) : Moves a c := by
  refine ⟨by rw [g.name, h.name], by rw [g.regions, h.regions], by rw [g.stop, h.stop], by rw [g.adjustable, h.adjustable],
    by rw [g.log, h.log], fun ha => by rw [g.fixed (by rw [h.adjustable, ha]), h.fixed ha], fun hl => ?_, fun hl => ?_⟩
  · obtain ⟨h1, h2, h3⟩ := h.lin hl
    obtain ⟨g1, g2, g3⟩ := g.lin (by rw [h.log, hl])
    rw [h.stop] at g2 g3
    exact ⟨le_trans h1 g1, fun e => g2 (h2 e), fun e => by rw [g3 (by rw [h3 e]; exact e), h3 e]⟩
  · obtain ⟨h1, h2, h3⟩ := h.dec hl
    obtain ⟨g1, g2, g3⟩ := g.dec (by rw [h.log, hl])
    rw [h.stop] at g2 g3
    exact ⟨le_trans g1 h1, fun e => g2 (h2 e), fun e => by rw [g3 (by rw [h3 e]; exact e), h3 e]⟩

theorem factor_ge (rt : ℚ) (h : 0 < rt) (h' : rt < 3 / 2) : 2 ≤ factor rt := by
  unfold factor
  have : (1 : Int) < ⌈2 / rt⌉ := by
    rw [Int.lt_ceil]
    rw [lt_div_iff₀ h]
    push_cast
    linarith
  omega

/-- What one adjustment does. -/
theorem newValue_moves (v : Var) (rt x : ℚ) (hr : 0 < rt) (hr' : rt < 3 / 2) (h0 : 0 ≤ v.value) (ha : v.adjustable = true)
    (h : newValue v rt = some x) : Moves v { v with value := x } := by
  have hf : (2 : ℚ) ≤ (factor rt : ℚ) := by exact_mod_cast factor_ge rt hr hr'
  unfold newValue at h
  refine ⟨rfl, rfl, rfl, rfl, rfl, fun he => (by rw [ha] at he; cases he), fun hl => ?_, fun hl => ?_⟩
  · split at h
    · rename_i hc
      simp only [Option.some.injEq] at h
      simp only
      subst h
      refine ⟨le_min ?_ hc.2.le, fun _ => min_le_right _ _, fun he => absurd hc.2 (not_lt.mpr he)⟩
      nlinarith
    · rw [hl] at h
      simp at h
  · split at h
    · rename_i hc
      rw [hl] at hc
      simp at hc
    · split at h
      · rename_i hc
        simp only [Option.some.injEq] at h
        simp only
        subst h
        refine ⟨max_le ?_ hc.2.le, fun _ => le_max_right _ _, fun he => absurd hc.2 (not_lt.mpr he)⟩
        have : (10 : ℚ) ^ (-(factor rt)) ≤ 1 := by
          apply zpow_le_one_of_nonpos₀
          · norm_num
          · have := factor_ge rt hr hr'
            omega
        nlinarith
      · cases h

/-- Steps left: `n` adjustments suffice to reach the stop value. -/
def Left (v : Var) (n : Nat) : Prop :=
  v.adjustable = true → (v.log = false → v.stop ≤ v.value * 2 ^ n) ∧ (v.log = true → v.value ≤ v.stop * 10 ^ n)

theorem left_newValue (v : Var) (rt x : ℚ) (n : Nat) (hr : 0 < rt) (hr' : rt < 3 / 2) (h0 : 0 ≤ v.value) (hs : 0 ≤ v.stop)
    (ha : v.adjustable = true) (h : newValue v rt = some x) (hn : Left v n) :
    ∃ k, n = k + 1 ∧ Left { v with value := x } k := by
  have hfi := factor_ge rt hr hr'
  have hf : (2 : ℚ) ≤ (factor rt : ℚ) := by exact_mod_cast hfi
  obtain ⟨n1, n2⟩ := hn ha
  unfold newValue at h
  split at h
  · rename_i hc
    simp only [Option.some.injEq] at h
    have := n1 hc.1
    cases n with
    | zero =>
      simp only [pow_zero, mul_one] at this
      exact absurd hc.2 (not_lt.mpr this)
    | succ k =>
      refine ⟨k, rfl, fun _ => ⟨fun _ => ?_, fun hl => ?_⟩⟩
      · simp only
        subst h
        have hp : (0 : ℚ) < 2 ^ k := by positivity
        rw [pow_succ] at this
        rcases min_choice (v.value * factor rt) v.stop with hm | hm <;> rw [hm]
        · have : v.value * 2 ≤ v.value * factor rt := by nlinarith
          nlinarith
        · have : (1 : ℚ) ≤ 2 ^ k := one_le_pow₀ (by norm_num)
          nlinarith
      · simp only at hl
        rw [hc.1] at hl
        cases hl
  · split at h
    · rename_i hc
      simp only [Option.some.injEq] at h
      have := n2 hc.1
      cases n with
      | zero =>
        simp only [pow_zero, mul_one] at this
        exact absurd hc.2 (not_lt.mpr this)
      | succ k =>
        refine ⟨k, rfl, fun _ => ⟨fun hl => ?_, fun _ => ?_⟩⟩
        · simp only at hl
          rw [hc.1] at hl
          cases hl
        · simp only
          subst h
          have hp : (0 : ℚ) < 10 ^ k := by positivity
          rw [pow_succ] at this
          rcases max_choice (v.value * (10 : ℚ) ^ (-(factor rt))) v.stop with hm | hm <;> rw [hm]
          · have h10 : (10 : ℚ) ^ (-(factor rt)) ≤ 1 / 10 := by
              have : (10 : ℚ) ^ (-(factor rt)) ≤ (10 : ℚ) ^ (-1 : Int) := by
                apply zpow_le_zpow_right₀
                · norm_num
                · omega
              simpa using this
            nlinarith
          · have : (1 : ℚ) ≤ 10 ^ k := one_le_pow₀ (by norm_num)
            nlinarith
    · cases h

theorem left_exists (v : Var) (h : v.adjustable = true → (v.log = false → 0 < v.value) ∧ (v.log = true → 0 < v.stop)) :
    ∃ n, Left v n := by
  by_cases ha : v.adjustable = true
  · obtain ⟨h1, h2⟩ := h ha
    cases hl : v.log with
    | false =>
      obtain ⟨n, hn⟩ := pow_unbounded_of_one_lt (v.stop / v.value) (show (1 : ℚ) < 2 by norm_num)
      refine ⟨n, fun _ => ⟨fun _ => ?_, fun e => (by rw [hl] at e; cases e)⟩⟩
      rw [div_lt_iff₀ (h1 hl)] at hn
      linarith
    | true =>
      obtain ⟨n, hn⟩ := pow_unbounded_of_one_lt (v.value / v.stop) (show (1 : ℚ) < 10 by norm_num)
      refine ⟨n, fun _ => ⟨fun e => (by rw [hl] at e; cases e), fun _ => ?_⟩⟩
      rw [div_lt_iff₀ (h2 hl)] at hn
      linarith
  · exact ⟨0, fun e => absurd e ha⟩

/-- Values and stop values are not negative. -/
def Nonneg (vs : List Var) : Prop := ∀ v ∈ vs, 0 ≤ v.value ∧ 0 ≤ v.stop

theorem map_ok {α β ε : Type} {x : Except ε α} {f : α → β} {y : β} (h : x.map f = .ok y) : ∃ a, x = .ok a ∧ y = f a := by
  cases x with
  | error e => cases h
  | ok a =>
    simp only [Except.map, Except.ok.injEq] at h
    exact ⟨a, rfl, h.symm⟩

theorem bind_ok {α β ε : Type} {x : Except ε α} {f : α → Except ε β} {y : β} (h : x >>= f = .ok y) :
    ∃ a, x = .ok a ∧ f a = .ok y := by
  cases x with
  | error e => cases h
  | ok a => exact ⟨a, rfl, h⟩

theorem adjustFirst_spec (region : String) (rt : ℚ) (hr : 0 < rt) (hr' : rt < 3 / 2) (vs : List Var) (h0 : Nonneg vs)
    (r : List Var × Option (String × ℚ)) (h : adjustFirst region rt vs = .ok r) :
    List.Forall₂ Moves vs r.1 ∧ Nonneg r.1 ∧
    ∀ ns, List.Forall₂ Left vs ns → ∃ ms, List.Forall₂ Left r.1 ms ∧ ms.sum ≤ ns.sum ∧ (r.2.isSome = true → ms.sum < ns.sum) := by
  induction vs generalizing r with
  | nil =>
    simp only [adjustFirst, Except.ok.injEq] at h
    subst h
    exact ⟨.nil, h0, fun ns hns => ⟨ns, hns, le_refl _, by simp⟩⟩
  | cons v vs ih =>
    have hv := h0 v (by simp)
    have hvs : Nonneg vs := fun x hx => h0 x (by simp [hx])
    have skip : ∀ r', adjustFirst region rt vs = .ok r' → r = (v :: r'.1, r'.2) →
        List.Forall₂ Moves (v :: vs) r.1 ∧ Nonneg r.1 ∧ ∀ ns, List.Forall₂ Left (v :: vs) ns →
          ∃ ms, List.Forall₂ Left r.1 ms ∧ ms.sum ≤ ns.sum ∧ (r.2.isSome = true → ms.sum < ns.sum) := by
      rintro r' h1 rfl
      obtain ⟨i1, i2, i3⟩ := ih hvs r' h1
      refine ⟨.cons (.refl v) i1, ?_, ?_⟩
      · intro x hx
        rcases List.mem_cons.mp hx with rfl | hx
        · exact hv
        · exact i2 x hx
      · intro ns hns
        cases hns with
        | cons hn hns =>
          obtain ⟨ms, m1, m2, m3⟩ := i3 _ hns
          refine ⟨_ :: ms, .cons hn m1, ?_, fun e => ?_⟩
          · simp only [List.sum_cons]; omega
          · have := m3 e
            simp only [List.sum_cons]; omega
    unfold adjustFirst at h
    split at h
    · rename_i hc
      rw [if_neg hr.ne'] at h
      split at h
      · rename_i x hx
        simp only [Except.ok.injEq] at h
        subst h
        have hm := newValue_moves v rt x hr hr' hv.1 hc.1 hx
        refine ⟨.cons hm (List.forall₂_same.mpr fun a _ => .refl a), ?_, ?_⟩
        · intro y hy
          rcases List.mem_cons.mp hy with rfl | hy
          · refine ⟨?_, hv.2⟩
            cases hl : v.log with
            | false => exact le_trans hv.1 (hm.lin hl).1
            | true =>
              obtain ⟨_, g2, g3⟩ := hm.dec hl
              rcases le_total v.stop v.value with hle | hle
              · exact le_trans hv.2 (g2 hle)
              · have := g3 hle
                rw [this]
                exact hv.1
          · exact h0 y (by simp [hy])
        · intro ns hns
          cases hns with
          | cons hn hns =>
            obtain ⟨k, rfl, hk⟩ := left_newValue v rt x _ hr hr' hv.1 hv.2 hc.1 hx hn
            exact ⟨k :: _, .cons hk hns, by simp only [List.sum_cons]; omega, fun _ => by simp only [List.sum_cons]; omega⟩
      · obtain ⟨r', h1, h2⟩ := map_ok h
        exact skip r' h1 h2
    · obtain ⟨r', h1, h2⟩ := map_ok h
      exact skip r' h1 h2

theorem forall₂_trans {as bs cs : List Var} (h : List.Forall₂ Moves as bs) (g : List.Forall₂ Moves bs cs) : List.Forall₂ Moves as cs := by
  induction h generalizing cs with
  | nil => cases g; exact .nil
  | cons hab _ ih =>
    cases g with
    | cons hbc g => exact .cons (hab.trans hbc) (ih g)

/-- What a call does to variables. -/
def Good (st st' : St) (b : Bool) : Prop :=
  List.Forall₂ Moves st.vars st'.vars ∧ Nonneg st'.vars ∧
  ∀ ns, List.Forall₂ Left st.vars ns → ∃ ms, List.Forall₂ Left st'.vars ms ∧ ms.sum ≤ ns.sum ∧ (b = true → ms.sum < ns.sum)

theorem adjustRegion_good (st st' : St) (b : Bool) (region : String) (rt : ℚ) (hr : 0 < rt) (hr' : rt < 3 / 2)
    (h0 : Nonneg st.vars) (h : adjustRegion st region rt = .ok (st', b)) : Good st st' b := by
  unfold adjustRegion at h
  obtain ⟨r, h1, h2⟩ := bind_ok h
  obtain ⟨g1, g2, g3⟩ := adjustFirst_spec region rt hr hr' st.vars h0 r h1
  split at h2
  · simp only [Except.ok.injEq, Prod.mk.injEq] at h2
    obtain ⟨rfl, rfl⟩ := h2
    refine ⟨g1, g2, fun ns hns => ?_⟩
    obtain ⟨ms, m1, m2, _⟩ := g3 ns hns
    exact ⟨ms, m1, m2, by simp⟩
  · rename_i name x he
    split at h2
    · cases h2
    · simp only [Except.ok.injEq, Prod.mk.injEq] at h2
      obtain ⟨rfl, rfl⟩ := h2
      refine ⟨g1, g2, fun ns hns => ?_⟩
      obtain ⟨ms, m1, m2, m3⟩ := g3 ns hns
      exact ⟨ms, m1, m2, fun _ => m3 (by rw [he]; rfl)⟩

theorem Good.trans {a b c : St} {x y : Bool} (h : Good a b x) (g : Good b c y) : Good a c (x || y) := by
  refine ⟨forall₂_trans h.1 g.1, g.2.1, fun ns hns => ?_⟩
  obtain ⟨ms, m1, m2, m3⟩ := h.2.2 ns hns
  obtain ⟨ks, k1, k2, k3⟩ := g.2.2 ms m1
  refine ⟨ks, k1, by omega, fun e => ?_⟩
  cases x with
  | true => have := m3 rfl; omega
  | false =>
    have := k3 (by simpa using e)
    omega

theorem Good.refl (st : St) (h0 : Nonneg st.vars) : Good st st false :=
  ⟨List.forall₂_same.mpr fun a _ => .refl a, h0, fun ns hns => ⟨ns, hns, le_refl _, by simp⟩⟩

theorem adjustRegions_good (rts : List (String × ℚ)) (st st' : St) (b : Bool) (hr : ∀ r ∈ rts, 0 < r.2 ∧ r.2 < 3 / 2)
    (h0 : Nonneg st.vars) (h : adjustRegions st rts = .ok (st', b)) : Good st st' b := by
  induction rts generalizing st st' b with
  | nil =>
    simp only [adjustRegions, Except.ok.injEq, Prod.mk.injEq] at h
    obtain ⟨rfl, rfl⟩ := h
    exact .refl _ h0
  | cons r rs ih =>
    obtain ⟨region, rt⟩ := r
    simp only [adjustRegions] at h
    obtain ⟨⟨st1, b1⟩, h1, h2⟩ := bind_ok h
    obtain ⟨⟨st2, b2⟩, h3, h4⟩ := bind_ok h2
    simp only [Except.ok.injEq, Prod.mk.injEq] at h4
    obtain ⟨rfl, rfl⟩ := h4
    obtain ⟨p1, p2⟩ := hr (region, rt) (by simp)
    have g1 := adjustRegion_good st st1 b1 region rt p1 p2 h0 h1
    have g2 := ih st1 st2 b2 (fun r hr' => hr r (by simp [hr'])) g1.2.1 h3
    exact g1.trans g2

theorem adjustVariables_good (rts : List (String × ℚ)) (st st' : St) (b : Bool) (hr : ∀ r ∈ rts, 0 < r.2)
    (h0 : Nonneg st.vars) (h : adjustVariables st rts = .ok (st', b)) : Good st st' b := by
  apply adjustRegions_good _ st st' b _ h0 h
  intro r hr'
  rw [List.mem_filter] at hr'
  exact ⟨hr r hr'.1, by simpa using hr'.2⟩

theorem foldl_min_le (rs : List (String × ℚ)) (m : ℚ) :
    rs.foldl (fun m x => min m x.2) m ≤ m ∧ ∀ r ∈ rs, rs.foldl (fun m x => min m x.2) m ≤ r.2 := by
  induction rs generalizing m with
  | nil => simp
  | cons x xs ih =>
    obtain ⟨h1, h2⟩ := ih (min m x.2)
    simp only [List.foldl_cons]
    refine ⟨le_trans h1 (min_le_left _ _), fun r hr => ?_⟩
    rcases List.mem_cons.mp hr with rfl | hr
    · exact le_trans h1 (min_le_right _ _)
    · exact h2 r hr

theorem foldl_min_mem (rs : List (String × ℚ)) (m : ℚ) :
    rs.foldl (fun m x => min m x.2) m = m ∨ ∃ r ∈ rs, rs.foldl (fun m x => min m x.2) m = r.2 := by
  induction rs generalizing m with
  | nil => simp
  | cons x xs ih =>
    simp only [List.foldl_cons]
    rcases ih (min m x.2) with h | ⟨r, hr, h⟩
    · rcases min_choice m x.2 with e | e
      · left; rw [h, e]
      · right; exact ⟨x, by simp, by rw [h, e]⟩
    · right; exact ⟨r, by simp [hr], h⟩

/-- `min` is the minimum. -/
theorem minRuntime_spec (rts : List (String × ℚ)) (m : ℚ) (h : minRuntime rts = some m) :
    (∃ r ∈ rts, r.2 = m) ∧ ∀ r ∈ rts, m ≤ r.2 := by
  cases rts with
  | nil => cases h
  | cons x xs =>
    simp only [minRuntime, Option.some.injEq] at h
    obtain ⟨h1, h2⟩ := foldl_min_le xs x.2
    constructor
    · rcases foldl_min_mem xs x.2 with e | ⟨r, hr, e⟩
      · exact ⟨x, by simp, by rw [← h, e]⟩
      · exact ⟨r, by simp [hr], by rw [← h, e]⟩
    · intro r hr
      rw [← h]
      rcases List.mem_cons.mp hr with rfl | hr
      · exact h1
      · exact h2 r hr

end Verif.Standalone
