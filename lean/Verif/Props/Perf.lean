import Verif.Model.Perf
import Mathlib.Tactic.Linarith
import Mathlib.Tactic.FieldSimp
import Mathlib.Tactic.NormNum
import Mathlib.Tactic.Ring
import Mathlib.Data.List.Induction
import Mathlib.Order.Bounds.Basic
import Mathlib.Algebra.BigOperators.Group.List.Lemmas
import Mathlib.Algebra.Order.BigOperators.Group.List

/-!
Properties C24-C27, C49 and C57 (performance models).
-/

namespace Verif.Perf

/-! ## C24 -/

theorem foldl_max_ge (l : List ℚ) (a : ℚ) : a ≤ l.foldl max a ∧ ∀ x ∈ l, x ≤ l.foldl max a := by
  induction l generalizing a with
  | nil => simp
  | cons y l ih =>
    obtain ⟨h1, h2⟩ := ih (max a y)
    refine ⟨le_trans (le_max_left _ _) h1, ?_⟩
    intro x hx
    rcases List.mem_cons.1 hx with rfl | hx
    · exact le_trans (le_max_right _ _) h1
    · exact h2 x hx

theorem foldl_max_mem (l : List ℚ) (a : ℚ) : l.foldl max a = a ∨ l.foldl max a ∈ l := by
  induction l generalizing a with
  | nil => simp
  | cons y l ih =>
    rw [List.foldl_cons]
    rcases ih (max a y) with h | h
    · rcases max_choice a y with e | e
      · left; rw [h, e]
      · right; rw [h, e]; simp
    · right; simp [h]

/-- Specification of an acceptable hierarchy: no overlapping level after a non-overlapping one. -/
def Monotone (flags : List Bool) : Prop := flags.Pairwise (fun a b => b = true → a = true)

instance (flags : List Bool) : Decidable (Monotone flags) := by unfold Monotone; infer_instance

theorem composeFold (s : Compose) (levels : List (Bool × ℚ)) :
    (Monotone ((!s.region) :: levels.map (·.1)) →
      ∃ r, levels.foldlM composeStep s = .ok ⟨s.ol ++ (levels.filter (·.1)).map (·.2),
        s.nol ++ (levels.filter (fun l => !l.1)).map (·.2), r⟩) ∧
    (¬ Monotone ((!s.region) :: levels.map (·.1)) →
      levels.foldlM composeStep s = .error "ValueError") := by
  induction levels generalizing s with
  | nil =>
    constructor
    · intro _; exact ⟨s.region, by simp [pure, Except.pure]⟩
    · intro h; exact absurd (by simp [Monotone]) h
  | cons l ls ih =>
    obtain ⟨f, c⟩ := l
    obtain ⟨ol, nol, reg⟩ := s
    cases f
    · have hstep : composeStep ⟨ol, nol, reg⟩ (false, c) = .ok ⟨ol, nol ++ [c], true⟩ := by
        simp [composeStep]
      rw [List.foldlM_cons, hstep]
      have hiff : Monotone ((!reg) :: ((false, c) :: ls).map (·.1)) ↔
          Monotone (false :: ls.map (·.1)) := by
        unfold Monotone
        simp only [List.map_cons, List.pairwise_cons]
        constructor
        · rintro ⟨_, h2, h3⟩; exact ⟨h2, h3⟩
        · rintro ⟨h2, h3⟩
          refine ⟨?_, h2, h3⟩
          intro b hb hbt
          rcases List.mem_cons.1 hb with rfl | hb
          · simp at hbt
          · have := h2 b hb hbt; simp at this
      have := ih ⟨ol, nol ++ [c], true⟩
      simp only [Bool.not_true] at this
      rw [hiff]
      refine ⟨fun h => ?_, fun h => this.2 h⟩
      obtain ⟨r, hr⟩ := this.1 h
      exact ⟨r, by simp [bind, Except.bind, hr]⟩
    · cases reg
      · have hstep : composeStep ⟨ol, nol, false⟩ (true, c) = .ok ⟨ol ++ [c], nol, false⟩ := by
          simp [composeStep]
        rw [List.foldlM_cons, hstep]
        have hiff : Monotone ((!false) :: ((true, c) :: ls).map (·.1)) ↔
            Monotone (true :: ls.map (·.1)) := by
          unfold Monotone
          simp only [List.map_cons, List.pairwise_cons]
          constructor
          · rintro ⟨_, h2, h3⟩; exact ⟨h2, h3⟩
          · rintro ⟨h2, h3⟩
            exact ⟨fun _ _ _ => rfl, h2, h3⟩
        have := ih ⟨ol ++ [c], nol, false⟩
        simp only [Bool.not_false] at this
        rw [hiff]
        refine ⟨fun h => ?_, fun h => this.2 h⟩
        obtain ⟨r, hr⟩ := this.1 h
        exact ⟨r, by simp [bind, Except.bind, hr]⟩
      · have hstep : composeStep ⟨ol, nol, true⟩ (true, c) = .error "ValueError" := by
          simp [composeStep]
        rw [List.foldlM_cons, hstep]
        refine ⟨fun h => ?_, fun _ => rfl⟩
        unfold Monotone at h
        simp at h

/-- C24: an acceptable hierarchy is composed as specified: overlapping contributions are `T_comp` and the
overlapping levels, non-overlapping ones are the other levels and a non-zero penalty, in order. -/
theorem C24_contributions (tComp tReg : ℚ) (f0 : Bool) (levels : List (Bool × ℚ)) (penalty : ℚ)
    (h : Monotone (f0 :: levels.map (·.1))) :
    compose tComp tReg f0 levels penalty =
      .ok (tComp :: (((f0, tReg) :: levels).filter (·.1)).map (·.2),
           (((f0, tReg) :: levels).filter (fun l => !l.1)).map (·.2) ++
             (if penalty ≠ 0 then [penalty] else [])) := by
  unfold compose
  have hr : (!(composeInit tComp tReg f0).region) = f0 := by cases f0 <;> rfl
  have hc := (composeFold (composeInit tComp tReg f0) levels).1 (by rw [hr]; exact h)
  obtain ⟨r, hr'⟩ := hc
  rw [hr']
  by_cases hp : penalty = 0 <;> cases f0 <;> simp [composeInit, hp]

/-- C24: every level contributes exactly once. -/
theorem C24_each_level_once (tComp tReg : ℚ) (f0 : Bool) (levels : List (Bool × ℚ)) (penalty : ℚ)
    (ol nol : List ℚ) (h : compose tComp tReg f0 levels penalty = .ok (ol, nol)) :
    (ol ++ nol).Perm (tComp :: tReg :: levels.map (·.2) ++ (if penalty ≠ 0 then [penalty] else [])) := by
  by_cases hm : Monotone (f0 :: levels.map (·.1))
  · rw [C24_contributions _ _ _ _ _ hm] at h
    simp only [Except.ok.injEq, Prod.mk.injEq] at h
    obtain ⟨rfl, rfl⟩ := h
    rw [← List.append_assoc]
    apply List.Perm.append_right
    simp only [List.cons_append]
    apply List.Perm.cons
    rw [← List.map_append]
    have := (List.filter_append_perm (fun l : Bool × ℚ => l.1) ((f0, tReg) :: levels)).map (·.2)
    simpa using this
  · have hr : (!(composeInit tComp tReg f0).region) = f0 := by cases f0 <;> rfl
    have := (composeFold (composeInit tComp tReg f0) levels).2 (by rw [hr]; exact hm)
    unfold compose at h
    rw [this] at h
    simp at h

/-- C24: a hierarchy is rejected exactly if an overlapping level follows a non-overlapping one. -/
theorem C24_rejected_iff (tComp tReg : ℚ) (f0 : Bool) (levels : List (Bool × ℚ)) (penalty : ℚ) :
    compose tComp tReg f0 levels penalty = .error "ValueError" ↔
      ¬ Monotone (f0 :: levels.map (·.1)) := by
  constructor
  · intro h hm
    rw [C24_contributions _ _ _ _ _ hm] at h
    simp at h
  · intro hm
    have hr : (!(composeInit tComp tReg f0).region) = f0 := by cases f0 <;> rfl
    have := (composeFold (composeInit tComp tReg f0) levels).2 (by rw [hr]; exact hm)
    unfold compose
    rw [this]

/-- C24: the total is the largest of the non-overlapping sum and the overlapping contributions. -/
theorem C24_total_is_max (ol nol : List ℚ) : IsGreatest {x | x = nol.sum ∨ x ∈ ol} (total ol nol) := by
  constructor
  · exact foldl_max_mem ol nol.sum
  · rintro x (rfl | hx)
    · exact (foldl_max_ge ol nol.sum).1
    · exact (foldl_max_ge ol nol.sum).2 x hx

/-- C24: with non-negative times the prediction is at least every single contribution, in particular the
memory time (the hypothesis of C25). -/
theorem C24_total_bounds_each (tComp tReg : ℚ) (f0 : Bool) (levels : List (Bool × ℚ)) (penalty : ℚ)
    (ol nol : List ℚ) (h : compose tComp tReg f0 levels penalty = .ok (ol, nol))
    (hc : 0 ≤ tComp) (hr : 0 ≤ tReg) (hl : ∀ l ∈ levels, 0 ≤ l.2) (hp : 0 ≤ penalty) :
    tComp ≤ total ol nol ∧ tReg ≤ total ol nol ∧ (∀ l ∈ levels, l.2 ≤ total ol nol) ∧
      penalty ≤ total ol nol := by
  have hperm := C24_each_level_once _ _ _ _ _ _ _ h
  have hnn : ∀ x ∈ ol ++ nol, 0 ≤ x := by
    intro x hx
    rw [hperm.mem_iff] at hx
    simp only [List.mem_append, List.mem_cons, List.mem_map] at hx
    rcases hx with (rfl | rfl | ⟨l, hl', rfl⟩) | hx
    · exact hc
    · exact hr
    · exact hl l hl'
    · split at hx <;> simp at hx
      rw [hx]; exact hp
  have hle : ∀ x ∈ ol ++ nol, x ≤ total ol nol := by
    intro x hx
    rcases List.mem_append.1 hx with hx | hx
    · exact (C24_total_is_max ol nol).2 (Or.inr hx)
    · have h1 : x ≤ nol.sum :=
        List.single_le_sum (fun y hy => hnn y (List.mem_append_right _ hy)) x hx
      exact le_trans h1 ((C24_total_is_max ol nol).2 (Or.inl rfl))
  have hmem : ∀ x, x ∈ tComp :: tReg :: levels.map (·.2) ++ (if penalty ≠ 0 then [penalty] else []) →
      x ≤ total ol nol := fun x hx => hle x (hperm.mem_iff.2 hx)
  have htc : tComp ≤ total ol nol := hmem _ (by simp)
  refine ⟨htc, hmem _ (by simp), fun l hl' => hmem _ ?_, ?_⟩
  · apply List.mem_append_left
    simp only [List.mem_cons, List.mem_map]
    exact Or.inr (Or.inr ⟨l, hl', rfl⟩)
  · by_cases h0 : penalty = 0
    · rw [h0]; exact le_trans hc htc
    · exact hmem _ (by simp [h0])

/-- Ivy Bridge style: nothing overlaps except `T_comp`. -/
example : compose 4 6 false [(false, 6), (false, 6), (false, 13)] 0 = .ok ([4], [6, 6, 6, 13]) := by
  rw [C24_contributions _ _ _ _ _ (by decide)]
  simp
example : total [4] [6, 6, 6, 13] = 31 := by norm_num [total]
example : compose 4 6 true [(false, 6), (true, 1)] 0 = .error "ValueError" := by
  rw [C24_rejected_iff]; decide

/-! ## C25 -/

/-- Utilisation in units of the memory time: `e = T_ECM / T_MEM`. -/
theorem util_scale (t e : ℚ) (ht : 0 < t) (n : Nat) : util t (e * t) n = util 1 e n := by
  induction n with
  | zero => rfl
  | succ n ih =>
    simp only [util, ih]
    have h1 : e * t + util 1 e n * n * t / 2 = (e + util 1 e n * n * 1 / 2) * t := by ring
    rw [h1]
    have h2 : ((n + 1 : Nat) : ℚ) * t > (e + util 1 e n * n * 1 / 2) * t ↔
        ((n + 1 : Nat) : ℚ) * 1 > e + util 1 e n * n * 1 / 2 := by
      rw [gt_iff_lt, gt_iff_lt, mul_lt_mul_iff_left₀ ht, mul_one ((n + 1 : Nat) : ℚ)]
    by_cases h : ((n + 1 : Nat) : ℚ) * 1 > e + util 1 e n * n * 1 / 2
    · rw [if_pos h, if_pos (h2.2 h)]
    · rw [if_neg h, if_neg (fun h' => h (h2.1 h')), mul_div_mul_right _ _ ht.ne', mul_one ((n + 1 : Nat) : ℚ)]

theorem util_bounds (e : ℚ) (he : 1 ≤ e) (n : Nat) : 0 ≤ util 1 e n ∧ util 1 e n ≤ 1 ∧
    (0 < n → 0 < util 1 e n) := by
  induction n with
  | zero => simp [util]
  | succ n ih =>
    simp only [util]
    have hd : 0 < e + util 1 e n * n * 1 / 2 := by
      have : 0 ≤ util 1 e n * n := mul_nonneg ih.1 (by positivity)
      linarith
    split
    · simp
    · rename_i h
      have hn : (0 : ℚ) < (n + 1 : Nat) := by positivity
      refine ⟨by positivity, ?_, fun _ => by positivity⟩
      rw [div_le_one hd]
      exact not_lt.1 h

/-- The code saturates at core count `n + 1`. -/
def Sat (e : ℚ) (n : Nat) : Prop := e + util 1 e n * n / 2 < n + 1

theorem util_succ_sat (e : ℚ) (n : Nat) (h : Sat e n) : util 1 e (n + 1) = 1 := by
  unfold Sat at h
  simp only [util]
  rw [if_pos]
  push_cast
  linarith

theorem util_succ_unsat (e : ℚ) (n : Nat) (h : ¬ Sat e n) :
    util 1 e (n + 1) = (n + 1) / (e + util 1 e n * n / 2) := by
  unfold Sat at h
  simp only [util]
  rw [if_neg]
  · push_cast; ring
  · push_cast; linarith

theorem util_mono_aux (e : ℚ) (he : 1 ≤ e) (n : Nat) :
    util 1 e n ≤ util 1 e (n + 1) ∧
    ((¬ Sat e n) → ((n : ℚ) + 1) * util 1 e (n + 1) - n * util 1 e n ≤ 2 * util 1 e (n + 1)) ∧
    (Sat e n → e < (n + 3) / 2) := by
  induction n with
  | zero =>
    refine ⟨?_, ?_, ?_⟩
    · rw [show util 1 e 0 = 0 from rfl]; exact (util_bounds e he 1).1
    · intro _
      rw [show util 1 e 0 = 0 from rfl]
      have := (util_bounds e he 1).1
      simp only [Nat.cast_zero, zero_add, zero_mul, one_mul, sub_zero]
      linarith
    · unfold Sat
      rw [show util 1 e 0 = 0 from rfl]
      intro h
      simp at h
      linarith
  | succ n ih =>
    obtain ⟨ihm, ihw, ihs⟩ := ih
    obtain ⟨hu0, hu1, hupos⟩ := util_bounds e he (n + 1)
    obtain ⟨hv0, hv1, _⟩ := util_bounds e he n
    have hup := hupos (by omega)
    -- names
    set u := util 1 e (n + 1) with hu
    set v := util 1 e n with hv
    have hn0 : (0 : ℚ) ≤ n := by positivity
    -- saturation is permanent
    have hstay : Sat e n → Sat e (n + 1) := by
      intro hs
      have h1 := ihs hs
      unfold Sat
      rw [← hu, hu, util_succ_sat e n hs]
      push_cast
      linarith
    have hD : 0 < e + u * (n + 1) / 2 := by
      have : 0 ≤ u * (n + 1) := by positivity
      linarith
    have hd : 0 < e + v * n / 2 := by
      have : 0 ≤ v * n := by positivity
      linarith
    refine ⟨?_, ?_, ?_⟩
    · by_cases hs1 : Sat e (n + 1)
      · rw [util_succ_sat e (n + 1) hs1]; exact hu1
      · have hs : ¬ Sat e n := fun h => hs1 (hstay h)
        rw [util_succ_unsat e (n + 1) hs1, ← hu]
        push_cast
        rw [le_div_iff₀ hD]
        have hw := ihw hs
        have hue : u * (e + v * n / 2) = n + 1 := by
          rw [hu, util_succ_unsat e n hs, ← hv]
          field_simp
        nlinarith [mul_le_mul_of_nonneg_left hw hu0, mul_nonneg hu0 hu0]
    · intro hs1
      have hs : ¬ Sat e n := fun h => hs1 (hstay h)
      have hue : u * (e + v * n / 2) = n + 1 := by
        rw [hu, util_succ_unsat e n hs, ← hv]
        field_simp
      set w := util 1 e (n + 1 + 1) with hw'
      have hwe : w * (e + u * (n + 1) / 2) = n + 2 := by
        rw [hw', util_succ_unsat e (n + 1) hs1, ← hu]
        push_cast
        field_simp
        ring
      have hDd : e + v * n / 2 ≤ e + u * (n + 1) / 2 := by nlinarith
      have hw0 : 0 ≤ w := (util_bounds e he (n + 2)).1
      -- (n+1) u (e + u (n+1)/2) ≥ (n+1)^2
      have h1 : (n + 1 : ℚ) * (n + 1) ≤ (n + 1) * u * (e + u * (n + 1) / 2) := by
        have : (n + 1 : ℚ) * u * (e + v * n / 2) ≤ (n + 1) * u * (e + u * (n + 1) / 2) :=
          mul_le_mul_of_nonneg_left hDd (by positivity)
        nlinarith
      have h2 : ((n + 2 : ℚ) * w - (n + 1) * u - 2 * w) * (e + u * (n + 1) / 2) ≤ 0 := by
        nlinarith
      have h3 : (n + 2 : ℚ) * w - (n + 1) * u - 2 * w ≤ 0 := by
        by_contra hc
        push Not at hc
        nlinarith [mul_pos hc hD]
      push_cast
      linarith
    · intro hs1
      by_cases hs : Sat e n
      · have := ihs hs; push_cast; linarith
      · have hue : u * (e + v * n / 2) = n + 1 := by
          rw [hu, util_succ_unsat e n hs, ← hv]
          field_simp
        unfold Sat at hs1
        rw [← hu] at hs1
        push_cast at hs1 ⊢
        -- e + u (n+1)/2 < n + 2 and e u = (n+1) - u v n / 2, v ≤ u
        by_contra hc
        push Not at hc
        nlinarith [mul_nonneg hu0 hn0, mul_nonneg hv0 hn0, mul_le_mul_of_nonneg_left ihm hn0]

/-- C25: the utilisation lies in (0, 1]. -/
theorem C25_utilisation_bounds (tMem tEcm : ℚ) (hm : 0 < tMem) (he : tMem ≤ tEcm) (n : Nat)
    (hn : 0 < n) : 0 < util tMem tEcm n ∧ util tMem tEcm n ≤ 1 := by
  have hsc := util_scale tMem (tEcm / tMem) hm n
  rw [div_mul_cancel₀ _ hm.ne'] at hsc
  rw [hsc]
  have h1 : 1 ≤ tEcm / tMem := by rw [le_div_iff₀ hm]; linarith
  obtain ⟨_, h2, h3⟩ := util_bounds (tEcm / tMem) h1 n
  exact ⟨h3 hn, h2⟩

/-- C25: the utilisation never decreases with the number of cores. -/
theorem C25_utilisation_monotone (tMem tEcm : ℚ) (hm : 0 < tMem) (he : tMem ≤ tEcm) (n m : Nat)
    (hnm : n ≤ m) : util tMem tEcm n ≤ util tMem tEcm m := by
  have h1 : 1 ≤ tEcm / tMem := by rw [le_div_iff₀ hm]; linarith
  have hsc : ∀ n, util tMem tEcm n = util 1 (tEcm / tMem) n := by
    intro n
    have hsc := util_scale tMem (tEcm / tMem) hm n
    rwa [div_mul_cancel₀ _ hm.ne'] at hsc
  rw [hsc, hsc]
  induction hnm with
  | refl => exact le_refl _
  | step _ ih => exact le_trans ih (util_mono_aux _ h1 _).1

/-- Closed form of the prediction. -/
theorem scaling_eq (tMem tEcm : ℚ) (hm : 0 < tMem) (he : tMem ≤ tEcm)
    (numa perSocket sockets cores : Nat) (hnuma : 0 < numa) (hc : 0 < cores)
    (hmax : cores ≤ numa ∨ cores ≤ perSocket * sockets) :
    scaling tMem tEcm numa perSocket sockets cores =
      .ok (if cores ≤ numa then tMem / util tMem tEcm cores
        else tMem / util tMem tEcm numa * numa / cores) := by
  have hE : tEcm ≠ 0 := ne_of_gt (lt_of_lt_of_le hm he)
  have hrec : tEcm / (tEcm / tMem) = tMem := by field_simp
  unfold scaling
  rw [if_neg hm.ne']
  simp only [hE, and_false, if_false, hrec, ite_self]
  by_cases h : cores ≤ numa
  · rw [if_pos ⟨hc, h⟩, if_pos h]
  · rw [if_neg (by tauto), if_pos (by tauto), if_neg (by omega), if_neg (by omega), if_neg h]

/-- C25: the prediction for one core is the single-core prediction. -/
theorem C25_one_core (tMem tEcm : ℚ) (hm : 0 < tMem) (he : tMem ≤ tEcm)
    (numa perSocket sockets : Nat) (hnuma : 0 < numa) :
    scaling tMem tEcm numa perSocket sockets 1 = .ok tEcm := by
  rw [scaling_eq tMem tEcm hm he numa perSocket sockets 1 hnuma (by omega) (Or.inl hnuma),
    if_pos (show 1 ≤ numa from hnuma)]
  have hE : 0 < tEcm := lt_of_lt_of_le hm he
  have : util tMem tEcm 1 = tMem / tEcm := by
    simp [util]
    intro h
    exact absurd he (not_le.2 h)
  rw [this]
  congr 1
  field_simp

/-- C25: inside a NUMA domain the runtime never drops below the memory transfer time. -/
theorem C25_memory_bound (tMem tEcm : ℚ) (hm : 0 < tMem) (he : tMem ≤ tEcm)
    (numa perSocket sockets cores : Nat) (hc : 0 < cores) (hcn : cores ≤ numa) (t : ℚ)
    (h : scaling tMem tEcm numa perSocket sockets cores = .ok t) : tMem ≤ t := by
  rw [scaling_eq tMem tEcm hm he numa perSocket sockets cores (by omega) hc (Or.inl hcn),
    if_pos hcn] at h
  simp only [Except.ok.injEq] at h
  obtain ⟨h1, h2⟩ := C25_utilisation_bounds tMem tEcm hm he cores hc
  rw [← h, le_div_iff₀ h1]
  nlinarith

/-- C25: more cores are never slower, within and beyond a NUMA domain. -/
theorem C25_runtime_monotone (tMem tEcm : ℚ) (hm : 0 < tMem) (he : tMem ≤ tEcm)
    (numa perSocket sockets c c' : Nat) (hnuma : 0 < numa) (hc : 0 < c) (hcc : c ≤ c')
    (hmax : c' ≤ numa ∨ c' ≤ perSocket * sockets) (t t' : ℚ)
    (h : scaling tMem tEcm numa perSocket sockets c = .ok t)
    (h' : scaling tMem tEcm numa perSocket sockets c' = .ok t') : t' ≤ t := by
  rw [scaling_eq tMem tEcm hm he numa perSocket sockets c hnuma hc (by omega)] at h
  rw [scaling_eq tMem tEcm hm he numa perSocket sockets c' hnuma (by omega) hmax] at h'
  simp only [Except.ok.injEq] at h h'
  obtain ⟨hn1, hn2⟩ := C25_utilisation_bounds tMem tEcm hm he numa hnuma
  have hbase : 0 < tMem / util tMem tEcm numa := by positivity
  by_cases h1 : c' ≤ numa
  · rw [if_pos h1] at h'
    rw [if_pos (by omega)] at h
    rw [← h, ← h']
    obtain ⟨hu1, hu2⟩ := C25_utilisation_bounds tMem tEcm hm he c hc
    exact div_le_div_of_nonneg_left hm.le hu1 (C25_utilisation_monotone tMem tEcm hm he c c' hcc)
  · rw [if_neg h1] at h'
    have hc'0 : (0 : ℚ) < c' := by exact_mod_cast (by omega : 0 < c')
    have hA : t' ≤ tMem / util tMem tEcm numa := by
      rw [← h', div_le_iff₀ hc'0]
      have : (numa : ℚ) ≤ c' := by exact_mod_cast (by omega : numa ≤ c')
      exact mul_le_mul_of_nonneg_left this hbase.le
    by_cases h2 : c ≤ numa
    · rw [if_pos h2] at h
      rw [← h]
      refine le_trans hA ?_
      obtain ⟨hu1, hu2⟩ := C25_utilisation_bounds tMem tEcm hm he c hc
      exact div_le_div_of_nonneg_left hm.le hu1 (C25_utilisation_monotone tMem tEcm hm he c numa h2)
    · rw [if_neg h2] at h
      rw [← h, ← h']
      have hc0 : (0 : ℚ) < c := by exact_mod_cast hc
      have : (c : ℚ) ≤ c' := by exact_mod_cast hcc
      apply div_le_div_of_nonneg_left _ hc0 this
      positivity

/-- C25: a kernel without memory traffic scales perfectly. -/
theorem C25_in_cache (tEcm : ℚ) (numa perSocket sockets cores : Nat) (hc : 0 < cores) :
    scaling 0 tEcm numa perSocket sockets cores = .ok (tEcm / cores) := by
  unfold scaling
  rw [if_pos rfl, if_neg (by omega)]

/-- Share of the memory bus that `c` cores ask for: their transfers over the time of one core, which waits for the others
half of the time they use the bus. -/
def demand (tMem tEcm : ℚ) (c : Nat) : ℚ :=
  c * tMem / (tEcm + util tMem tEcm (c - 1) * (c - 1 : Nat) * tMem / 2)

/-- C25: the utilisation is what the cores ask for, at most one, and the bus is reported as saturated from the first core
count of the NUMA domain for which they ask for more. -/
theorem C25_saturation (tMem tEcm : ℚ) (hm : 0 < tMem) (he : tMem ≤ tEcm) (numa : Nat) :
    (∀ c, 0 < c → util tMem tEcm c = min 1 (demand tMem tEcm c)) ∧
    (∀ s, scalingCores tMem tEcm numa = some s ↔
      0 < s ∧ s ≤ numa ∧ 1 < demand tMem tEcm s ∧ ∀ c, 0 < c → c < s → demand tMem tEcm c ≤ 1) ∧
    (scalingCores tMem tEcm numa = none ↔ ∀ c, 0 < c → c ≤ numa → demand tMem tEcm c ≤ 1) := by
  have hE : 0 < tEcm := lt_of_lt_of_le hm he
  have hu : ∀ c, 0 ≤ util tMem tEcm c := by
    intro c
    cases c with
    | zero => simp [util]
    | succ c => exact (C25_utilisation_bounds tMem tEcm hm he (c + 1) (by omega)).1.le
  have hd : ∀ c : Nat, 0 < tEcm + util tMem tEcm (c - 1) * (c - 1 : Nat) * tMem / 2 := by
    intro c
    have := hu (c - 1)
    positivity
  have h1 : ∀ c : Nat, 1 < demand tMem tEcm c ↔
      (c : ℚ) * tMem > tEcm + util tMem tEcm (c - 1) * (c - 1 : Nat) * tMem / 2 := by
    intro c
    unfold demand
    rw [one_lt_div (hd c)]
  refine ⟨?_, ?_, ?_⟩
  · intro c hc
    obtain ⟨c, rfl⟩ : ∃ n, c = n + 1 := ⟨c - 1, by omega⟩
    have hb := h1 (c + 1)
    rw [util]
    simp only [Nat.add_sub_cancel] at hb ⊢
    split_ifs with h
    · rw [min_eq_left (hb.2 h).le]
    · have : ¬ 1 < demand tMem tEcm (c + 1) := fun h' => h (hb.1 h')
      rw [min_eq_right (not_lt.1 this)]
      simp [demand]
  · intro s
    unfold scalingCores
    constructor
    · intro h
      obtain ⟨hp, as, bs, hl, hn⟩ := List.find?_eq_some_iff_append.1 h
      have hlen : as.length < numa := by
        have := congrArg List.length hl
        simp at this; omega
      have hget : ∀ i, i < numa → ((List.range numa).map (· + 1))[i]? = some (i + 1) := by
        intro i hi; simp [hi]
      have hs : s = as.length + 1 := by
        have := hget as.length hlen
        rw [hl] at this
        simpa using this
      refine ⟨by omega, by omega, (h1 s).2 (by simpa using hp), fun c hc hcs => ?_⟩
      have hm' : c ∈ as := by
        have := hget (c - 1) (by omega)
        rw [hl, List.getElem?_append_left (by omega)] at this
        have := List.mem_of_getElem? this
        rwa [Nat.sub_add_cancel hc] at this
      have := hn c hm'
      by_contra hlt
      have h3 := (h1 c).1 (not_le.1 hlt)
      simp at this
      linarith
    · rintro ⟨h0, hs, hp, hbefore⟩
      cases hf : ((List.range numa).map (· + 1)).find? fun c : Nat =>
          decide ((c : ℚ) * tMem > tEcm + util tMem tEcm (c - 1) * (c - 1 : Nat) * tMem / 2) with
      | none =>
        rw [List.find?_eq_none] at hf
        have := hf s (by simp; exact ⟨s - 1, by omega, by omega⟩)
        simp at this
        have h3 := (h1 s).1 hp
        linarith
      | some t =>
        obtain ⟨hpt, as, bs, hl, hn⟩ := List.find?_eq_some_iff_append.1 hf
        have hlen : as.length < numa := by
          have := congrArg List.length hl
          simp at this; omega
        have hget : ∀ i, i < numa → ((List.range numa).map (· + 1))[i]? = some (i + 1) := by
          intro i hi; simp [hi]
        have ht : t = as.length + 1 := by
          have := hget as.length hlen
          rw [hl] at this
          simpa using this
        have hts : ¬ t < s := fun hlt => by
          have h4 := hbefore t (by omega) hlt
          have h5 := (h1 t).2 (by simpa using hpt)
          linarith
        have hst : ¬ s < t := fun hlt => by
          have hm' : s ∈ as := by
            have := hget (s - 1) (by omega)
            rw [hl, List.getElem?_append_left (by omega)] at this
            have := List.mem_of_getElem? this
            rwa [Nat.sub_add_cancel h0] at this
          have := hn s hm'
          have h3 := (h1 s).1 hp
          simp at this
          linarith
        congr 1
        omega
  · unfold scalingCores
    rw [List.find?_eq_none]
    constructor
    · intro h c hc hcn
      have := h c (by simp; exact ⟨c - 1, by omega, by omega⟩)
      by_contra hlt
      exact this (by simpa using (h1 c).1 (not_le.1 hlt))
    · intro h c hmem hp
      simp at hmem
      obtain ⟨a, ha, rfl⟩ := hmem
      have h5 := (h1 (a + 1)).2 (by simpa using hp)
      have := h (a + 1) (by omega) (by omega)
      linarith

example : scalingCores 13 31 8 = some 4 := by norm_num [scalingCores, util, List.range, List.range.loop]

/-- C25: core counts beyond the machine are rejected. -/
theorem C25_too_many_cores_rejected (tMem tEcm : ℚ) (hm : 0 < tMem) (he : tMem ≤ tEcm)
    (numa perSocket sockets cores : Nat) (h1 : numa < cores) (h2 : perSocket * sockets < cores) :
    scaling tMem tEcm numa perSocket sockets cores = .error "ValueError" := by
  have hE : tEcm ≠ 0 := ne_of_gt (lt_of_lt_of_le hm he)
  unfold scaling
  rw [if_neg hm.ne']
  simp only [hE, and_false, if_false]
  rw [if_neg (by omega), if_neg (by omega)]

example : util 13 31 1 = 13 / 31 ∧ util 13 31 2 < util 13 31 3 := by norm_num [util]
example : scaling 13 31 8 8 2 1 = .ok 31 :=
  C25_one_core 13 31 (by norm_num) (by norm_num) 8 8 2 (by norm_num)

/-! ## C26 -/

/-- The claim of C26 for one conversion result, clock, number of iterations per cacheline and flops. -/
def Consistent (clock : ℚ) (itPerCl : ℚ) (flops : Nat) (c : Conv) : Prop :=
  c.cyIt * itPerCl = c.cyCl ∧
  (∀ q, c.itS = .fin q → q * c.cyIt = clock ∧ c.flopS = .fin (q * flops)) ∧
  (c.itS = .inf ↔ c.cyCl = 0)

/-- Specification: iterations per cacheline of a loop with the given increment. -/
def itPerCl (clSize elSize increment : Nat) : ℚ := (clSize : ℚ) / ((elSize : ℚ) * increment)

/-- C26 is false for `ECMCPU.conv_cy`: cycles per iteration are multiplied instead of divided. -/
theorem C26_negation_cpu : ∃ c, convCPU 1 16 64 8 2 = some c ∧ ¬ Consistent 1 (itPerCl 64 8 1) 2 c := by
  refine ⟨⟨.fin (1 / 16 * 8), 16, 128, .fin (1 / 16 * 8 * 2)⟩, by norm_num [convCPU, Val.scale], ?_⟩
  rintro ⟨h, _⟩
  norm_num [itPerCl] at h

/-- C26 is false for `ECMData.conv_cy` when the inner loop increment is not one: elements are taken for
iterations. -/
theorem C26_negation_increment :
    ∃ c, convData 1 16 64 8 2 = some c ∧ ¬ Consistent 1 (itPerCl 64 8 2) 2 c := by
  refine ⟨⟨.fin (1 / 16 * 8), 16, 2, .fin (1 / 16 * 8 * 2)⟩, by norm_num [convData, Val.scale], ?_⟩
  rintro ⟨h, _⟩
  norm_num [itPerCl] at h

/-- C26 for `ECMData.conv_cy`, increment one and element sizes dividing the cacheline. Missing: other
increments (`C26_negation_increment`). -/
theorem C26_data_partial (clock cyCl : ℚ) (el elSize flops : Nat) (he : 0 < elSize) (hel : 0 < el) :
    ∃ c, convData clock cyCl (el * elSize) elSize flops = some c ∧
      Consistent clock (itPerCl (el * elSize) elSize 1) flops c := by
  have h1 : el * elSize / elSize = el := Nat.mul_div_cancel _ he
  have hq : (0 : ℚ) < el := by exact_mod_cast hel
  have hq2 : (0 : ℚ) < elSize := by exact_mod_cast he
  have hit : itPerCl (el * elSize) elSize 1 = el := by
    unfold itPerCl; push_cast; field_simp
  by_cases hcy : cyCl = 0
  · refine ⟨⟨.inf, cyCl, cyCl / el, Val.inf.scale flops⟩, ?_, ?_⟩
    · simp [convData, he.ne', h1, hel.ne', hcy]
    · rw [hit]
      exact ⟨by simp only; field_simp, by simp, by simp [hcy]⟩
  · refine ⟨⟨.fin (clock / cyCl * el), cyCl, cyCl / el, (Val.fin (clock / cyCl * el)).scale flops⟩, ?_, ?_⟩
    · simp [convData, he.ne', h1, hel.ne', hcy]
    · rw [hit]
      refine ⟨by simp only; field_simp, ?_, by simp [hcy]⟩
      intro q hq'
      simp only [Val.fin.injEq] at hq'
      subst hq'
      refine ⟨by simp only; field_simp, rfl⟩

/-- C26 for `ECMCPU.conv_cy`: everything except cy/It is right: It/s times cy/CL is clock times elements per
cacheline, and FLOP/s follows It/s. Missing: cy/It (`C26_negation_cpu`). -/
theorem C26_cpu_partial (clock cyCl : ℚ) (el elSize flops : Nat) (he : 0 < elSize) (hcy : cyCl ≠ 0) :
    ∃ c q, convCPU clock cyCl (el * elSize) elSize flops = some c ∧ c.cyCl = cyCl ∧
      c.itS = .fin q ∧ q * cyCl = clock * el ∧ c.flopS = .fin (q * flops) := by
  have h1 : el * elSize / elSize = el := Nat.mul_div_cancel _ he
  refine ⟨⟨.fin (clock / cyCl * el), cyCl, cyCl * el, (Val.fin (clock / cyCl * el)).scale flops⟩,
    clock / cyCl * el, ?_, rfl, rfl, by field_simp, rfl⟩
  simp [convCPU, he.ne', h1, hcy]

/-- C26, exactly: `ECMData.conv_cy` is consistent if and only if the increment is one. -/
theorem C26_data_iff (clock cyCl : ℚ) (el elSize flops increment : Nat) (he : 0 < elSize) (hel : 0 < el) (hi : 0 < increment) (hcy : cyCl ≠ 0) :
    (∃ c, convData clock cyCl (el * elSize) elSize flops = some c ∧ Consistent clock (itPerCl (el * elSize) elSize increment) flops c) ↔
      increment = 1 := by
  constructor
  · rintro ⟨c, hc, hk⟩
    have h1 : el * elSize / elSize = el := Nat.mul_div_cancel _ he
    have hq : (0 : ℚ) < el := by exact_mod_cast hel
    have hq2 : (0 : ℚ) < elSize := by exact_mod_cast he
    have hq3 : (0 : ℚ) < increment := by exact_mod_cast hi
    simp only [convData, he.ne', h1, hel.ne', if_false, Option.some.injEq] at hc
    subst hc
    have h2 := hk.1
    simp only [itPerCl] at h2
    push_cast at h2
    field_simp at h2
    have h3 : (increment : ℚ) = 1 := by linarith
    exact_mod_cast h3
  · rintro rfl
    exact C26_data_partial clock cyCl el elSize flops he hel

example : ¬ ∃ c, convData 1 16 (8 * 8) 8 2 = some c ∧ Consistent 1 (itPerCl (8 * 8) 8 4) 2 c := by
  rw [C26_data_iff 1 16 8 8 2 4 (by decide) (by decide) (by decide) (by norm_num)]
  decide

/-- C26: both conversions report the same It/s and FLOP/s. -/
theorem C26_models_agree_partial (clock cyCl : ℚ) (clSize elSize flops : Nat) (a b : Conv)
    (ha : convData clock cyCl clSize elSize flops = some a)
    (hb : convCPU clock cyCl clSize elSize flops = some b) : a.itS = b.itS ∧ a.flopS = b.flopS := by
  unfold convData at ha
  unfold convCPU at hb
  split at ha
  · simp at ha
  · rename_i h
    rw [if_neg h] at hb
    simp only at ha hb
    split at ha
    · simp at ha
    · simp only [Option.some.injEq] at ha hb
      subst ha hb
      by_cases hcy : cyCl = 0 <;> simp [hcy]

/-- C26: element sizes above the cacheline size are rejected by `ECMData.conv_cy` (division by zero). -/
theorem C26_oversized_element_rejected (clock cyCl : ℚ) (clSize elSize flops : Nat) (h : clSize < elSize) :
    convData clock cyCl clSize elSize flops = none := by
  simp [convData, Nat.div_eq_of_lt h]

/-! ## C27 -/

theorem roofFold (p0 : WithTop ℚ) (rest : List (WithTop ℚ)) :
    let r := rest.foldl roofStep (1, 0, p0)
    r.1 = rest.length + 1 ∧ r.2.1 < rest.length + 1 ∧ (p0 :: rest)[r.2.1]? = some r.2.2 ∧
      (∀ (j : Nat) q, (p0 :: rest)[j]? = some q → r.2.2 ≤ q ∧ (j < r.2.1 → r.2.2 < q)) := by
  induction rest using List.reverseRecOn with
  | nil =>
    refine ⟨rfl, by simp, by simp, ?_⟩
    intro j q h
    cases j with
    | zero => simp at h; simp [h]
    | succ j => simp at h
  | append_singleton l x ih =>
    simp only at ih ⊢
    rw [List.foldl_append, List.foldl_cons, List.foldl_nil]
    obtain ⟨h1, h2, h3, h4⟩ := ih
    generalize l.foldl roofStep (1, 0, p0) = r at *
    have hlen : (p0 :: l).length = l.length + 1 := by simp
    have hget : ∀ (j : Nat) q, (p0 :: (l ++ [x]))[j]? = some q →
        (j < l.length + 1 ∧ (p0 :: l)[j]? = some q) ∨ (j = l.length + 1 ∧ q = x) := by
      intro j q h
      rw [← List.cons_append] at h
      by_cases hj : j < l.length + 1
      · left; rw [List.getElem?_append_left (by simpa using hj)] at h; exact ⟨hj, h⟩
      · right
        rw [List.getElem?_append_right (by simpa using hj)] at h
        have hj2 : j - (p0 :: l).length = 0 := by
          by_contra hne
          obtain ⟨k, hk⟩ := Nat.exists_eq_succ_of_ne_zero hne
          rw [hk] at h; simp at h
        rw [hj2] at h
        simp at h hj2
        exact ⟨by omega, h.symm⟩
    unfold roofStep
    split
    · rename_i hlt
      simp only
      refine ⟨by simp [h1], by simp [h1], ?_, ?_⟩
      · rw [h1, ← List.cons_append, List.getElem?_append_right (by simp)]
        simp
      · intro j q hq
        rcases hget j q hq with ⟨hj, hq⟩ | ⟨hj, rfl⟩
        · have := (h4 j q hq).1
          exact ⟨le_of_lt (lt_of_lt_of_le hlt this), fun _ => lt_of_lt_of_le hlt this⟩
        · exact ⟨le_refl _, fun h => by omega⟩
    · rename_i hlt
      simp only
      refine ⟨by simp [h1], by simp; omega, ?_, ?_⟩
      · rw [← List.cons_append, List.getElem?_append_left (by simpa using h2)]
        exact h3
      · intro j q hq
        rcases hget j q hq with ⟨hj, hq⟩ | ⟨hj, rfl⟩
        · exact h4 j q hq
        · exact ⟨not_lt.1 hlt, fun h => by omega⟩

/-- C27: the reported level is the first one with the least performance, and the reported performance is
its performance. -/
theorem C27_bottleneck (p0 : WithTop ℚ) (rest : List (WithTop ℚ)) (i : Nat) (p : WithTop ℚ)
    (h : roofline (some p0) rest = .ok (i, p)) :
    (p0 :: rest)[i]? = some p ∧
      ∀ (j : Nat) q, (p0 :: rest)[j]? = some q → p ≤ q ∧ (j < i → p < q) := by
  simp only [roofline, Except.ok.injEq] at h
  have := roofFold p0 rest
  simp only at this
  rw [h] at this
  exact ⟨this.2.2.1, this.2.2.2⟩

/-- C27: a kernel that loads nothing in L1 is an error, not a wrong bottleneck. -/
theorem C27_no_loads_rejected (rest : List (WithTop ℚ)) : roofline none rest = .error "TypeError" := rfl

theorem roofAsmFold (p0 : WithTop ℚ) (rest : List (WithTop ℚ)) :
    let r := (p0 :: rest).foldl roofAsmStep (0, none, ⊤)
    r.1 = rest.length + 1 ∧
    ((r.2.1 = none ∧ r.2.2 = ⊤ ∧ ∀ q ∈ rest, q = ⊤) ∨
     ∃ i, r.2.1 = some (i + 1) ∧ rest[i]? = some r.2.2 ∧ r.2.2 ≠ ⊤ ∧
      ∀ (j : Nat) q, rest[j]? = some q → r.2.2 ≤ q ∧ (j < i → r.2.2 < q)) := by
  induction rest using List.reverseRecOn with
  | nil => exact ⟨rfl, Or.inl ⟨rfl, rfl, by simp⟩⟩
  | append_singleton l x ih =>
    simp only at ih ⊢
    rw [← List.cons_append, List.foldl_append, List.foldl_cons, List.foldl_nil]
    obtain ⟨h1, h2⟩ := ih
    generalize (p0 :: l).foldl roofAsmStep (0, none, ⊤) = r at *
    have hget : ∀ (j : Nat) q, (l ++ [x])[j]? = some q →
        (j < l.length ∧ l[j]? = some q) ∨ (j = l.length ∧ q = x) := by
      intro j q h
      by_cases hj : j < l.length
      · left; rw [List.getElem?_append_left hj] at h; exact ⟨hj, h⟩
      · right
        rw [List.getElem?_append_right (by omega)] at h
        have hj2 : j - l.length = 0 := by
          by_contra hne
          obtain ⟨k, hk⟩ := Nat.exists_eq_succ_of_ne_zero hne
          rw [hk] at h; simp at h
        rw [hj2] at h
        simp at h
        exact ⟨by omega, h.symm⟩
    unfold roofAsmStep
    rw [if_neg (by omega)]
    rcases h2 with ⟨hn, ht, hall⟩ | ⟨i, hi, hget', hfin, hmin⟩
    · by_cases hx : x = ⊤
      · rw [if_neg (by rw [ht, hx]; simp)]
        refine ⟨by simp [h1], Or.inl ⟨hn, ht, ?_⟩⟩
        intro q hq
        rcases List.mem_append.1 hq with hq | hq
        · exact hall q hq
        · simp at hq; rw [hq, hx]
      · rw [if_pos (by rw [ht]; exact lt_top_iff_ne_top.2 hx)]
        refine ⟨by simp [h1], Or.inr ⟨l.length, by simp [h1], by simp, hx, ?_⟩⟩
        intro j q hq
        rcases hget j q hq with ⟨hj, hq⟩ | ⟨hj, rfl⟩
        · have := hall q (List.mem_of_getElem? hq)
          rw [this]
          exact ⟨le_top, fun _ => lt_top_iff_ne_top.2 hx⟩
        · exact ⟨le_refl _, fun h => by omega⟩
    · by_cases hlt : x < r.2.2
      · rw [if_pos hlt]
        refine ⟨by simp [h1], Or.inr ⟨l.length, by simp [h1], by simp, ?_, ?_⟩⟩
        · exact ne_of_lt (lt_of_lt_of_le hlt le_top)
        · intro j q hq
          rcases hget j q hq with ⟨hj, hq⟩ | ⟨hj, rfl⟩
          · have := (hmin j q hq).1
            exact ⟨le_of_lt (lt_of_lt_of_le hlt this), fun _ => lt_of_lt_of_le hlt this⟩
          · exact ⟨le_refl _, fun h => by omega⟩
      · rw [if_neg hlt]
        have hil : i < l.length := (List.getElem?_eq_some_iff.1 hget').1
        refine ⟨by simp [h1], Or.inr ⟨i, hi, ?_, hfin, ?_⟩⟩
        · rw [List.getElem?_append_left hil]; exact hget'
        · intro j q hq
          rcases hget j q hq with ⟨hj, hq⟩ | ⟨hj, rfl⟩
          · exact hmin j q hq
          · exact ⟨not_lt.1 hlt, fun h => by omega⟩

/-- C27, ASM variant: CPU-L1 never is the bottleneck; if some other level has a finite performance, the first
one with the least performance is reported, otherwise none. -/
theorem C27_bottleneck_asm (p0 : WithTop ℚ) (rest : List (WithTop ℚ)) :
    (rooflineAsm (p0 :: rest) = (none, ⊤) ∧ ∀ q ∈ rest, q = ⊤) ∨
    ∃ i p, rooflineAsm (p0 :: rest) = (some (i + 1), p) ∧ rest[i]? = some p ∧ p ≠ ⊤ ∧
      ∀ (j : Nat) q, rest[j]? = some q → p ≤ q ∧ (j < i → p < q) := by
  have := roofAsmFold p0 rest
  simp only at this
  unfold rooflineAsm
  rcases this.2 with ⟨h1, h2, h3⟩ | ⟨i, h1, h2, h3, h4⟩
  · left; exact ⟨Prod.ext h1 h2, h3⟩
  · right; exact ⟨i, _, Prod.ext h1 rfl, h2, h3, h4⟩

example : roofline (some 5) [3, ⊤, 3, 4] = .ok (1, 3) := by decide
example : rooflineAsm [1, 7, ⊤, 3, 3] = (some 3, 3) := by decide

/-! ## C49 -/

theorem mem_blockingLoop (bs bd : Int) (blocks is : List Int) (hnd : blocks.Nodup) :
    (blockingLoop bs bd blocks is).Nodup ∧
    ∀ b, b ∈ blockingLoop bs bd blocks is ↔ b ∈ blocks ∨ ∃ i ∈ is, (i - bd).fdiv bs = b := by
  induction is generalizing blocks with
  | nil => simp [blockingLoop, hnd]
  | cons i is ih =>
    rw [blockingLoop]
    split
    · rename_i h
      obtain ⟨h1, h2⟩ := ih blocks hnd
      refine ⟨h1, fun b => ?_⟩
      rw [h2]
      simp only [List.mem_cons, exists_eq_or_imp]
      constructor
      · tauto
      · rintro (h' | h' | h')
        · exact Or.inl h'
        · exact Or.inl (h' ▸ h)
        · exact Or.inr h'
    · rename_i h
      obtain ⟨h1, h2⟩ := ih (blocks ++ [(i - bd).fdiv bs]) (by
        rw [List.nodup_append]
        exact ⟨hnd, by simp, by
          intro a ha b hb; simp at hb; rintro rfl; exact h (hb ▸ ha)⟩)
      refine ⟨h1, fun b => ?_⟩
      rw [h2]
      simp only [List.mem_append, List.mem_cons, List.not_mem_nil, or_false, exists_eq_or_imp]
      constructor
      · rintro ((h' | h') | h')
        · exact Or.inl h'
        · exact Or.inr (Or.inl h'.symm)
        · exact Or.inr (Or.inr h')
      · rintro (h' | h' | h')
        · exact Or.inl (Or.inl h')
        · exact Or.inl (Or.inr h'.symm)
        · exact Or.inr h'

/-- C49: the block list is strictly increasing and contains exactly the blocks in which an index lies. -/
theorem C49_blocking (indices : List Int) (bs bd : Int) (hbs : 0 < bs) :
    ∃ l, blocking indices bs bd = some l ∧ l.Pairwise (· < ·) ∧
      ∀ b, b ∈ l ↔ ∃ i ∈ indices, bd + b * bs ≤ i ∧ i < bd + (b + 1) * bs := by
  refine ⟨_, by unfold blocking; rw [if_neg (by omega)], ?_, ?_⟩
  · obtain ⟨hnd, _⟩ := mem_blockingLoop bs bd [] indices (by simp)
    have hs := List.pairwise_insertionSort (· ≤ ·) (blockingLoop bs bd [] indices)
    have hperm := List.perm_insertionSort (· ≤ ·) (blockingLoop bs bd [] indices)
    have hnd' := hperm.nodup_iff.2 hnd
    exact (hs.and hnd').imp (fun h => lt_of_le_of_ne h.1 h.2)
  · intro b
    have hperm := List.perm_insertionSort (· ≤ ·) (blockingLoop bs bd [] indices)
    rw [hperm.mem_iff, (mem_blockingLoop bs bd [] indices (by simp)).2]
    simp only [List.not_mem_nil, false_or]
    apply exists_congr
    intro i
    apply and_congr_right
    intro _
    rw [Int.fdiv_eq_ediv_of_nonneg _ hbs.le]
    constructor
    · rintro rfl
      have h1 := Int.mul_ediv_add_emod (i - bd) bs
      have h2 := Int.emod_nonneg (i - bd) hbs.ne'
      have h3 := Int.emod_lt_of_pos (i - bd) hbs
      constructor <;> nlinarith
    · rintro ⟨h1, h2⟩
      have h3 : b ≤ (i - bd) / bs := by rw [Int.le_ediv_iff_mul_le hbs]; linarith
      have h4 : (i - bd) / bs < b + 1 := by rw [Int.ediv_lt_iff_lt_mul hbs]; linarith
      omega

/-- C49: a zero block size is rejected. -/
theorem C49_zero_block_rejected (indices : List Int) (bd : Int) (h : indices ≠ []) :
    blocking indices 0 bd = none := by
  simp [blocking, h]

/-- C49, rounding, is false for fractional bases: the multiple is truncated to an integer. -/
theorem C49_negation : ∃ (x base : ℚ) (r : Int), 0 < base ∧ roundToNext x base = some r ∧ (r : ℚ) < x := by
  refine ⟨1 / 2, 1 / 2, 0, by norm_num, ?_, by norm_num⟩
  have : ⌈(1 / 2 : ℚ) / (1 / 2)⌉ = 1 := by norm_num
  simp only [roundToNext]
  rw [if_neg (by norm_num), this]
  have : ⌊(1 / 2 : ℚ) * ((1 : Int) : ℚ)⌋ = 0 := by
    rw [Int.floor_eq_iff]; norm_num
  rw [if_pos (by norm_num), this]

/-- C49, rounding, for integer bases: the result is the least multiple of the base not below `x`. Missing:
fractional bases (`C49_negation`). -/
theorem C49_round_partial (x : ℚ) (base : Int) (hb : 0 < base) :
    ∃ r : Int, roundToNext x base = some r ∧ base ∣ r ∧ x ≤ r ∧ ∀ m : Int, base ∣ m → x ≤ m → r ≤ m := by
  have hbq : (0 : ℚ) < base := by exact_mod_cast hb
  refine ⟨base * ⌈x / base⌉, ?_, dvd_mul_right _ _, ?_, ?_⟩
  · unfold roundToNext
    rw [if_neg hbq.ne']
    have : (base : ℚ) * (⌈x / base⌉ : Int) = ((base * ⌈x / base⌉ : Int) : ℚ) := by push_cast; ring
    simp only [this, Int.floor_intCast, Int.ceil_intCast, ite_self]
  · have := Int.le_ceil (x / base)
    rw [div_le_iff₀ hbq] at this
    push_cast
    linarith
  · rintro m ⟨k, rfl⟩ h
    apply mul_le_mul_of_nonneg_left _ hb.le
    rw [Int.ceil_le, div_le_iff₀ hbq]
    push_cast at h
    linarith

/-- C49, rounding: a fractional base whose next multiple happens to be an integer is handled correctly as
well; what is returned otherwise is that multiple truncated. -/
theorem C49_round_truncates (x base : ℚ) (hb : 0 < base) (hx : 0 ≤ x) :
    roundToNext x base = some ⌊base * (⌈x / base⌉ : Int)⌋ := by
  unfold roundToNext
  rw [if_neg hb.ne']
  simp only
  rw [if_pos]
  have : (0 : ℚ) ≤ (⌈x / base⌉ : Int) := by
    exact_mod_cast Int.ceil_nonneg (div_nonneg hx hb.le)
  positivity

/-- C49, rounding, exactly: the result is the least multiple of the base not below `x` if and only if that multiple is an integer. -/
theorem C49_round_iff (x base : ℚ) (hb : 0 < base) :
    (∃ r : Int, roundToNext x base = some r ∧ (∃ k : Int, (r : ℚ) = base * k) ∧ x ≤ r ∧ ∀ k : Int, x ≤ base * k → (r : ℚ) ≤ base * k) ↔
      ∃ z : Int, base * (⌈x / base⌉ : Int) = (z : ℚ) := by
  have hup : x ≤ base * (⌈x / base⌉ : Int) := by
    have := Int.le_ceil (x / base)
    rw [div_le_iff₀ hb] at this
    linarith
  have hleast : ∀ k : Int, x ≤ base * k → base * (⌈x / base⌉ : Int) ≤ base * (k : ℚ) := by
    intro k h
    refine mul_le_mul_of_nonneg_left ?_ hb.le
    have : ⌈x / base⌉ ≤ k := by
      rw [Int.ceil_le, div_le_iff₀ hb]
      linarith
    exact_mod_cast this
  constructor
  · rintro ⟨r, -, ⟨k, hk⟩, h1, h2⟩
    refine ⟨r, le_antisymm ?_ (h2 _ hup)⟩
    have := hleast k (by rwa [← hk])
    rwa [← hk] at this
  · rintro ⟨z, hz⟩
    refine ⟨z, ?_, ⟨_, hz.symm⟩, by rwa [← hz], fun k h => by rw [← hz]; exact hleast k h⟩
    unfold roundToNext
    rw [if_neg hb.ne']
    simp only [hz, Int.floor_intCast, Int.ceil_intCast, ite_self]

example : ∃ z : Int, (3 / 2 : ℚ) * (⌈(5 / 2 : ℚ) / (3 / 2)⌉ : Int) = (z : ℚ) := by
  have : ⌈(5 / 2 : ℚ) / (3 / 2)⌉ = 2 := by rw [Int.ceil_eq_iff]; norm_num
  exact ⟨3, by rw [this]; norm_num⟩

/-- C49: `ceildiv` is the least integer not below the quotient. -/
theorem C49_ceildiv (a b : Int) (hb : 0 < b) :
    ∃ r, ceildiv a b = some r ∧ a ≤ r * b ∧ ∀ m, a ≤ m * b → r ≤ m := by
  refine ⟨_, by unfold ceildiv; rw [if_neg hb.ne'], ?_, ?_⟩
  · rw [Int.fdiv_eq_ediv_of_nonneg _ hb.le]
    have h1 := Int.ediv_mul_le (-a) hb.ne'
    linarith [neg_mul (-a / b) b]
  · intro m hm
    rw [Int.fdiv_eq_ediv_of_nonneg _ hb.le]
    have h1 : -m ≤ -a / b := by rw [Int.le_ediv_iff_mul_le hb]; linarith [neg_mul m b]
    omega

/-- The documentation examples of `blocking` (the first one is documented as `[0,-1]`, which the code does
not return). -/
example : blocking [0, -1, -2, -3, -4, -5, -6, -7, -8, -9] 8 0 = some [-2, -1, 0] := by decide
example : blocking [0] 8 32 = some [-4] := by decide
example : ceildiv 7 2 = some 4 ∧ ceildiv (-7) 2 = some (-3) := by decide

/-! ## C57 -/

theorem foldr_max_spec (l : List ℚ) :
    0 ≤ l.foldr max 0 ∧ (∀ x ∈ l, x ≤ l.foldr max 0) ∧ (l.foldr max 0 = 0 ∨ l.foldr max 0 ∈ l) := by
  induction l with
  | nil => simp
  | cons a l ih =>
    obtain ⟨h1, h2, h3⟩ := ih
    simp only [List.foldr_cons, List.mem_cons, forall_eq_or_imp]
    refine ⟨le_max_of_le_right h1, ⟨le_max_left _ _, fun x hx => le_max_of_le_right (h2 x hx)⟩, ?_⟩
    rcases max_choice a (l.foldr max 0) with h | h
    · rw [h]; exact Or.inr (Or.inl rfl)
    · rw [h]
      rcases h3 with h3 | h3
      · exact Or.inl h3
      · exact Or.inr (Or.inr h3)

/-- `m` is the largest of the cycles, scaled by `ratio`, of the listed ports, or zero. -/
def IsPortMax (cycles : List (String × ℚ)) (ports : List String) (ratio m : ℚ) : Prop :=
  0 ≤ m ∧ (∀ p c, (p, c) ∈ cycles → p ∈ ports → c * ratio ≤ m) ∧
    (m = 0 ∨ ∃ p c, (p, c) ∈ cycles ∧ p ∈ ports ∧ m = c * ratio)

theorem portMax_spec (cycles : List (String × ℚ)) (ports : List String) (ratio : ℚ) :
    IsPortMax cycles ports ratio (portMax (cycles.map fun c => (c.1, c.2 * ratio)) ports) := by
  obtain ⟨h1, h2, h3⟩ := foldr_max_spec
    (((cycles.map fun c => (c.1, c.2 * ratio)).filter (fun c => ports.contains c.1)).map (·.2))
  refine ⟨h1, ?_, ?_⟩
  · intro p c hc hp
    apply h2
    simp only [List.mem_map, List.mem_filter]
    exact ⟨(p, c * ratio), ⟨⟨(p, c), hc, rfl⟩, by simpa using hp⟩, rfl⟩
  · rcases h3 with h3 | h3
    · exact Or.inl h3
    · right
      obtain ⟨a, ha, hval⟩ := List.mem_map.1 h3
      obtain ⟨ha, hp⟩ := List.mem_filter.1 ha
      obtain ⟨⟨p, c⟩, hc, rfl⟩ := List.mem_map.1 ha
      exact ⟨p, c, hc, by simpa using hp, hval.symm⟩

/-- C57: in-core times per cacheline. The block size is `|pointer increment // element size|` elements. -/
theorem C57_scaled (tp : ℚ) (cycles : List (String × ℚ)) (ol nol : List String) (pinc : Int)
    (elSize clSize : Nat) (r : Incore) (h : analyzeCPU tp cycles ol nol pinc elSize clSize = some r) :
    ∃ ratio : ℚ, ratio * (((pinc.fdiv elSize).natAbs * elSize : Nat) : ℚ) = clSize ∧
      r.clThroughput = tp * ratio ∧ IsPortMax cycles nol ratio r.tRegL1 ∧
      (r.clThroughput ≤ r.tRegL1 → IsPortMax cycles ol ratio r.tComp) ∧
      (r.tRegL1 < r.clThroughput → r.tComp = r.clThroughput) ∧
      r.portCycles = cycles.map fun c => (c.1, c.2 * ratio) := by
  unfold analyzeCPU at h
  split at h
  · simp at h
  · simp only at h
    split at h
    · simp at h
    · rename_i hb
      simp only [Option.some.injEq] at h
      have hbq : (((pinc.fdiv elSize).natAbs * elSize : Nat) : ℚ) ≠ 0 := by exact_mod_cast hb
      refine ⟨(clSize : ℚ) / (((pinc.fdiv elSize).natAbs * elSize : Nat) : ℚ), ?_, ?_⟩
      · field_simp
      · subst h
        refine ⟨rfl, portMax_spec _ _ _, ?_, ?_, rfl⟩
        · intro hle
          simp only at hle ⊢
          rw [if_neg (not_lt.2 hle)]
          exact portMax_spec _ _ _
        · intro hlt
          simp only at hlt ⊢
          rw [if_pos hlt]

/-- C57: whenever the throughput prediction exceeds the data time, the core time is not below it. -/
theorem C57_not_below_throughput (tp : ℚ) (cycles : List (String × ℚ)) (ol nol : List String) (pinc : Int)
    (elSize clSize : Nat) (r : Incore) (h : analyzeCPU tp cycles ol nol pinc elSize clSize = some r) :
    r.clThroughput ≤ max r.tComp r.tRegL1 := by
  obtain ⟨_, _, _, _, _, h5, _⟩ := C57_scaled tp cycles ol nol pinc elSize clSize r h
  rcases lt_or_ge r.tRegL1 r.clThroughput with hlt | hge
  · rw [h5 hlt]; exact le_max_left _ _
  · exact le_max_of_le_right hge

/-- C57: exactly the pointer increments within one element (upwards) are rejected. -/
theorem C57_rejected_iff (tp : ℚ) (cycles : List (String × ℚ)) (ol nol : List String) (pinc : Int)
    (elSize clSize : Nat) (he : 0 < elSize) :
    analyzeCPU tp cycles ol nol pinc elSize clSize = none ↔ 0 ≤ pinc ∧ pinc < elSize := by
  have key : (pinc.fdiv elSize).natAbs * elSize = 0 ↔ 0 ≤ pinc ∧ pinc < elSize := by
    rw [Nat.mul_eq_zero, Int.natAbs_eq_zero, Int.fdiv_eq_ediv_of_nonneg _ (by omega)]
    constructor
    · rintro (h | h)
      · have h1 := Int.mul_ediv_add_emod pinc elSize
        have h2 := Int.emod_nonneg pinc (by omega : (elSize : Int) ≠ 0)
        have h3 := Int.emod_lt_of_pos pinc (by omega : (0 : Int) < elSize)
        rw [h] at h1
        omega
      · omega
    · rintro ⟨h1, h2⟩
      exact Or.inl (Int.ediv_eq_zero_of_lt h1 h2)
  unfold analyzeCPU
  rw [if_neg he.ne']
  simp only [key]
  split <;> simp_all

example : analyzeCPU 2 [("0", 1), ("2D", 2), ("3D", 2)] ["0"] ["2D", "3D"] 32 8 64 =
    some ⟨[("0", 2), ("2D", 4), ("3D", 4)], 4, 2, 4⟩ := by
  decide +kernel

end Verif.Perf
