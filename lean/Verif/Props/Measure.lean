import Verif.Model.Measure
import Verif.Props.Bench
import Verif.Props.Standalone
import Mathlib.Tactic.Linarith
import Mathlib.Tactic.FieldSimp
import Mathlib.Algebra.Order.Floor.Ring

/-!
C73, C74 and C75: measurements of the benchmark model.
-/

namespace Verif.Measure

open Verif.Bench Verif.Iteration

/-! ### C73 -/

theorem next_grows (r : Int) (t : ℚ) (hr : 3 ≤ r) (ht0 : 0 ≤ t) (ht : t < 3 / 2) : r < nextRepetitions r (t / r) := by
  have hrq : (0 : ℚ) < r := by exact_mod_cast (by omega : (0 : Int) < r)
  unfold nextRepetitions
  split
  · rename_i hne
    have htp : 0 < t := by
      rcases lt_or_eq_of_le ht0 with h | h
      · exact h
      · exact absurd (by rw [← h]; simp) hne
    have h1 : ((r + 1 : Int) : ℚ) ≤ 2 / (t / r) := by
      rw [le_div_iff₀ (div_pos htp hrq)]
      push_cast
      have hr3 : (3 : ℚ) ≤ r := by exact_mod_cast hr
      rw [mul_div_assoc', div_le_iff₀ hrq]
      nlinarith
    have := Int.le_floor.mpr h1
    omega
  · omega

theorem next_first (r : Int) : nextRepetitions r (2 / 10) = 10 := by
  unfold nextRepetitions
  rw [if_pos (by norm_num)]
  norm_num

theorem repeatLoop_spec (runtime : Nat → Int → ℚ) (h0 : ∀ n r, 0 ≤ runtime n r) (fuel : Nat) :
    ∀ (n : Nat) (last : ℚ) (r : Int), 3 ≤ r → 0 ≤ last → ∀ res, repeatLoop runtime fuel (n + 1) last r (last / r) = some res →
      (last = runtime n r) →
      ∃ m q, n ≤ m ∧ r + ((m : Int) - n) ≤ q ∧ 3 / 2 ≤ runtime m q ∧ res = .ok (q, runtime m q, runtime m q / q) := by
  induction fuel with
  | zero =>
    intro n last r hr hl res h he
    unfold repeatLoop at h
    split at h
    · cases h
    · rename_i hlt
      refine ⟨n, r, le_refl _, by omega, ?_, ?_⟩
      · rw [← he]; push Not at hlt; exact hlt
      · rw [← he]; exact (Option.some.inj h).symm
  | succ fuel ih =>
    intro n last r hr hl res h he
    unfold repeatLoop at h
    split at h
    · rename_i hlt
      have hg := next_grows r last hr hl hlt
      simp only at h
      rw [if_neg (by omega)] at h
      obtain ⟨m, q, h1, h2, h3, h4⟩ := ih (n + 1) _ _ (by omega) (h0 _ _) res h rfl
      exact ⟨m, q, by omega, by push_cast at h2; omega, h3, h4⟩
    · rename_i hlt
      refine ⟨n, r, le_refl _, by omega, ?_, ?_⟩
      · rw [← he]; push Not at hlt; exact hlt
      · rw [← he]; exact (Option.some.inj h).symm

/-- C73: whatever (nonnegative) runtimes are reported, there is no division by zero, the run that is used is a run of at
least 1.5 seconds, the time per repetition is its time divided by its repetitions, and each run before had fewer
repetitions than the next, starting from ten. -/
theorem C73_repetitions (runtime : Nat → Int → ℚ) (h0 : ∀ n r, 0 ≤ runtime n r) (iterations : Int) (fuel : Nat)
    (res : Except String (Int × ℚ × ℚ)) (h : determineRepetitions runtime iterations fuel = some res) :
    ∃ (m : Nat) (q : Int), 10 + (m : Int) ≤ q ∧ 3 / 2 ≤ runtime m q ∧ res = .ok (q, runtime m q, runtime m q / q) := by
  unfold determineRepetitions at h
  cases fuel with
  | zero =>
    rw [repeatLoop, if_pos (by norm_num)] at h
    cases h
  | succ fuel =>
    rw [repeatLoop, if_pos (by norm_num)] at h
    simp only [next_first] at h
    rw [if_neg (by decide)] at h
    obtain ⟨m, q, h1, h2, h3, h4⟩ := repeatLoop_spec runtime h0 fuel 0 _ 10 (by decide) (h0 _ _) res h rfl
    exact ⟨m, q, by push_cast at h2; omega, h3, h4⟩

theorem repeatLoop_ends (runtime : Nat → Int → ℚ) (c : ℚ) (hc : 0 < c) (hrt : ∀ n r, 0 < r → c * r ≤ runtime n r) (k : Nat) :
    ∀ (n : Nat) (last : ℚ) (r : Int), 3 ≤ r → c * r ≤ last → 3 / 2 ≤ c * (r + k) →
      ∃ res, repeatLoop runtime k (n + 1) last r (last / r) = some res := by
  induction k with
  | zero =>
    intro n last r hr hl hk
    unfold repeatLoop
    rw [if_neg (by push_cast at hk; linarith)]
    exact ⟨_, rfl⟩
  | succ k ih =>
    intro n last r hr hl hk
    unfold repeatLoop
    split
    · rename_i hlt
      have hrq : (0 : ℚ) < r := by exact_mod_cast (by omega : (0 : Int) < r)
      have hg := next_grows r last hr (le_trans (by positivity) hl) hlt
      simp only
      rw [if_neg (by omega)]
      refine ih (n + 1) _ _ (by omega) (hrt _ _ (by omega)) ?_
      have : ((r + 1 : Int) : ℚ) ≤ nextRepetitions r (last / r) := by exact_mod_cast (by omega : r + 1 ≤ nextRepetitions r (last / r))
      push_cast at hk this
      nlinarith
    · exact ⟨_, rfl⟩

/-- C73, for runtimes of at least `c` seconds per repetition: there is a result. Missing: runtimes without lower bound,
see the negation. -/
theorem C73_terminates_partial (runtime : Nat → Int → ℚ) (c : ℚ) (hc : 0 < c) (hrt : ∀ n r, 0 < r → c * r ≤ runtime n r)
    (iterations : Int) (fuel : Nat) (hf : 3 / 2 ≤ c * (10 + fuel)) :
    ∃ res, determineRepetitions runtime iterations (fuel + 1) = some res := by
  unfold determineRepetitions repeatLoop
  rw [if_pos (by norm_num)]
  simp only [next_first]
  rw [if_neg (by decide)]
  exact repeatLoop_ends runtime c hc hrt fuel 0 _ 10 (by decide) (hrt _ _ (by decide)) (by push_cast; exact hf)

theorem repeatLoop_reaches (runtime : Nat → Int → ℚ) (h0 : ∀ n r, 0 ≤ runtime n r) (R : Int) (hR : ∀ n r, R ≤ r → 3 / 2 ≤ runtime n r)
    (k : Nat) : ∀ (n : Nat) (r : Int), 3 ≤ r → R ≤ r + k →
      ∃ res, repeatLoop runtime k (n + 1) (runtime n r) r (runtime n r / r) = some res := by
  induction k with
  | zero =>
    intro n r hr hk
    unfold repeatLoop
    rw [if_neg (not_lt.mpr (hR n r (by simpa using hk)))]
    exact ⟨_, rfl⟩
  | succ k ih =>
    intro n r hr hk
    unfold repeatLoop
    split
    · rename_i hlt
      have hg := next_grows r _ hr (h0 n r) hlt
      simp only
      rw [if_neg (by omega)]
      exact ih (n + 1) _ (by omega) (by push_cast at hk; omega)
    · exact ⟨_, rfl⟩

/-- C73: there is a result whenever enough repetitions take 1.5 seconds in every run, however the time depends on their number. -/
theorem C73_long_enough_partial (runtime : Nat → Int → ℚ) (h0 : ∀ n r, 0 ≤ runtime n r) (R : Int)
    (hR : ∀ n r, R ≤ r → 3 / 2 ≤ runtime n r) (iterations : Int) : ∃ fuel res, determineRepetitions runtime iterations fuel = some res := by
  obtain ⟨res, h⟩ := repeatLoop_reaches runtime h0 R hR R.toNat 0 10 (by decide) (by omega)
  refine ⟨R.toNat + 1, res, ?_⟩
  unfold determineRepetitions repeatLoop
  rw [if_pos (by norm_num)]
  simp only [next_first]
  rw [if_neg (by decide)]
  exact h

/-- C73: if more repetitions never take less time, there is a result exactly if some number of repetitions takes 1.5 seconds. -/
theorem C73_result_iff (time : Int → ℚ) (h0 : ∀ r, 0 ≤ time r) (hm : ∀ r s, r ≤ s → time r ≤ time s) (iterations : Int) :
    (∃ fuel res, determineRepetitions (fun _ r => time r) iterations fuel = some res) ↔ ∃ r, 3 / 2 ≤ time r := by
  constructor
  · rintro ⟨fuel, res, h⟩
    obtain ⟨m, q, -, h2, -⟩ := C73_repetitions (fun _ r => time r) (fun _ => h0) iterations fuel res h
    exact ⟨q, h2⟩
  · rintro ⟨r, hr⟩
    exact C73_long_enough_partial (fun _ r => time r) (fun _ => h0) r (fun _ s hs => le_trans hr (hm r s hs)) iterations

/-- Repetitions that take no time up to a thousand and two seconds beyond. -/
example : ∃ fuel res, determineRepetitions (fun _ r => if r ≤ 1000 then 0 else 2) 10 fuel = some res :=
  (C73_result_iff (fun r => if r ≤ 1000 then 0 else 2) (fun r => by split <;> norm_num)
    (fun r s h => by split <;> split <;> first | omega | norm_num) 10).mpr ⟨1001, by norm_num⟩

/-- A millisecond per repetition and a tenth of a second for the start. -/
example : determineRepetitions (fun _ r => r / 1000 + 1 / 10) 10 4 = some (.ok (1855, 391 / 200, 391 / 371000)) := by
  decide +kernel

/-- C73, negation: without measurable runtimes there is never a result. -/
theorem C73_negation_zero : ∃ runtime : Nat → Int → ℚ, (∀ n r, 0 ≤ runtime n r) ∧
    ∀ iterations fuel, determineRepetitions runtime iterations fuel = none := by
  refine ⟨fun _ _ => 0, fun _ _ => le_refl _, ?_⟩
  intro iterations fuel
  cases h : determineRepetitions (fun _ _ => 0) iterations fuel with
  | none => rfl
  | some res =>
    obtain ⟨m, q, _, h3, _⟩ := C73_repetitions (fun _ _ => 0) (fun _ _ => le_refl _) iterations fuel res h
    norm_num at h3

/-- C73, negation: the number of iterations from the command line has no influence. -/
theorem C73_negation_iterations (runtime : Nat → Int → ℚ) (i j : Int) (fuel : Nat) :
    determineRepetitions runtime i fuel = determineRepetitions runtime j fuel := by
  unfold determineRepetitions
  cases fuel with
  | zero => rw [repeatLoop, repeatLoop, if_pos (by norm_num), if_pos (by norm_num)]
  | succ fuel =>
    have e : ∀ k : Int, repeatLoop runtime (fuel + 1) 0 0 (k / 10) (2 / 10) =
        repeatLoop runtime fuel 1 (runtime 0 10) 10 (runtime 0 10 / (10 : Int)) := by
      intro k
      rw [repeatLoop, if_pos (by norm_num)]
      simp only [next_first]
      rw [if_neg (by decide)]
    rw [e, e]

/-! ### C74 -/

/-- C74, partial: the iterations per repetition are the iterations of the loop nest. Missing (hypotheses): loops whose
step does not divide their length, and loops that end before they start, see the negations. -/
theorem C74_iterations_partial (ls : List Loop) (h : ∀ l ∈ ls, 0 < l.incr ∧ l.start ≤ l.stop ∧ l.incr ∣ l.stop - l.start) :
    iterationsPerRepetition ls = some ((cNest ls).length : ℚ) := by
  rw [Standalone.cNest_length]
  induction ls with
  | nil => simp [iterationsPerRepetition]
  | cons l ls ih =>
    obtain ⟨h1, h2, k, hk⟩ := h l (by simp)
    have hi := ih fun x hx => h x (by simp [hx])
    have hk0 : 0 ≤ k := by
      by_contra hneg
      have : l.incr * k < 0 := by nlinarith
      omega
    obtain ⟨n, rfl⟩ := Int.eq_ofNat_of_zero_le hk0
    have hstop : l.stop = l.start + n * l.incr := by rw [mul_comm]; omega
    have hq : ((l.incr : ℚ)) ≠ 0 := by exact_mod_cast h1.ne'
    simp only [iterationsPerRepetition]
    rw [if_neg h1.ne', hi, List.map_cons, List.prod_cons, hstop, Standalone.cLoop_length_dvd _ _ h1]
    simp only [Option.bind_eq_bind, Option.bind_some, Option.pure_def, Option.some.injEq]
    push_cast
    field_simp
    ring

/-- `3 × 8` iterations. -/
example : iterationsPerRepetition [⟨1, 7, 2⟩, ⟨0, 8, 1⟩] = some 24 := by decide +kernel

theorem iterationsPerRepetition_prod (ls : List Loop) (h : ∀ l ∈ ls, 0 < l.incr) :
    iterationsPerRepetition ls = some (ls.map fun l : Loop => ((l.stop - l.start : Int) : ℚ) / l.incr).prod := by
  induction ls with
  | nil => rfl
  | cons l ls ih =>
    have h1 := h l (by simp)
    simp only [iterationsPerRepetition]
    rw [if_neg h1.ne', ih fun x hx => h x (by simp [hx])]
    simp [Option.bind_eq_bind]

/-- C74: the exact condition for loops that are entered. The number is the one of the loop nest if and only if every step divides the
length of its loop. -/
theorem C74_iterations_iff (ls : List Loop) (h : ∀ l ∈ ls, 0 < l.incr ∧ l.start < l.stop) :
    iterationsPerRepetition ls = some ((cNest ls).length : ℚ) ↔ ∀ l ∈ ls, l.incr ∣ l.stop - l.start := by
  rw [iterationsPerRepetition_prod ls fun l hl => (h l hl).1, Standalone.cNest_length, Option.some.injEq]
  have hq : ∀ l ∈ ls, (0 : ℚ) < l.incr := fun l hl => by exact_mod_cast (h l hl).1
  have hp := (Standalone.prod_eq_iff (fun l : Loop => ((l.stop - l.start : Int) : ℚ) / l.incr)
    (fun l : Loop => (((cLoop l.start l.stop l.incr).length : Nat) : ℚ)) ls fun l hl => by
      obtain ⟨a, -⟩ := Standalone.cLoop_bounds l.start l.stop l.incr (h l hl).1 (h l hl).2
      obtain ⟨-, -, c, -⟩ := Standalone.cLoop_floor l.start l.stop l.incr (h l hl).1 (h l hl).2
      refine ⟨div_nonneg (by exact_mod_cast (by have := (h l hl).2; omega)) (hq l hl).le, ?_, by exact_mod_cast c⟩
      rw [div_le_iff₀ (hq l hl)]
      exact_mod_cast a).2.2.2
  have hc := map_list_prod (Nat.castRingHom ℚ) (ls.map fun l : Loop => (cLoop l.start l.stop l.incr).length)
  rw [List.map_map] at hc
  rw [show (((ls.map fun l : Loop => (cLoop l.start l.stop l.incr).length).prod : Nat) : ℚ) = _ from hc]
  refine Iff.trans hp (forall₂_congr fun l hl => ?_)
  rw [div_eq_iff (hq l hl).ne']
  constructor
  · intro e
    have e' : l.stop - l.start = ((cLoop l.start l.stop l.incr).length : Int) * l.incr := by exact_mod_cast e
    exact ⟨_, by rw [e', mul_comm]⟩
  · intro hd
    have e := (Standalone.cLoop_floor l.start l.stop l.incr (h l hl).1 (h l hl).2).2.2.2.2 hd
    have e' : l.stop - l.start = ((cLoop l.start l.stop l.incr).length : Int) * l.incr := by
      rw [← e, Int.ediv_mul_cancel hd]
    exact_mod_cast e'

example : iterationsPerRepetition [⟨1, 7, 2⟩, ⟨0, 9, 2⟩] ≠ some ((cNest [⟨1, 7, 2⟩, ⟨0, 9, 2⟩]).length : ℚ) := by
  rw [Ne, C74_iterations_iff _ (by decide)]
  decide

/-- C74, negation: a part of an iteration is counted for a loop whose last step is incomplete. The loop from 0 to 7 in
steps of 2 has four iterations. -/
theorem C74_negation_step : iterationsPerRepetition [⟨0, 7, 2⟩] = some (7 / 2) ∧ (cNest [⟨0, 7, 2⟩]).length = 4 := by
  refine ⟨by decide +kernel, ?_⟩
  rw [Standalone.cNest_length, List.map_cons, List.map_nil, List.prod_singleton]
  rw [cLoop, if_pos (by decide), cLoop, if_pos (by decide), cLoop, if_pos (by decide), cLoop, if_pos (by decide), cLoop,
    if_neg (by decide)]
  rfl

/-- C74, negation: loops without iterations have negative counts, two of them together a positive one. -/
theorem C74_negation_empty : iterationsPerRepetition [⟨2, 0, 1⟩, ⟨2, 0, 1⟩] = some 4 ∧
    (cNest [⟨2, 0, 1⟩, ⟨2, 0, 1⟩]).length = 0 := by
  refine ⟨by decide +kernel, ?_⟩
  have h : cLoop 2 0 1 = [] := by rw [cLoop, if_neg (by decide)]
  simp [cNest, h]

/-! ### C75 -/

section
variable {N D P R S V : Type} [DecidableEq N] [DecidableEq D] [DecidableEq P] [DecidableEq R] [DecidableEq S]

theorem get_put {K W : Type} [DecidableEq K] (k j : K) (v : W) (l : List (K × W)) :
    get j (put k v l) = if j = k then some v else get j l := by
  induction l with
  | nil =>
    simp only [put, get]
    by_cases h : j = k
    · simp [h]
    · rw [if_neg (fun e => h e.symm), if_neg h]
  | cons x l ih =>
    obtain ⟨k', v'⟩ := x
    simp only [put]
    by_cases hk : k' = k
    · rw [if_pos hk]
      simp only [get]
      by_cases h : j = k
      · rw [if_pos (by rw [hk, h]), if_pos h]
      · have hkj : ¬ k' = j := by rw [hk]; exact fun e => h e.symm
        rw [if_neg hkj, if_neg h, if_neg hkj]
    · rw [if_neg hk]
      simp only [get, ih]
      by_cases h : k' = j
      · rw [if_pos h, if_pos h, if_neg (by rw [← h]; exact hk)]
      · rw [if_neg h, if_neg h]

theorem get_absent {K W : Type} [DecidableEq K] (k : K) (l : List (K × W)) (h : k ∉ l.map Prod.fst) : get k l = none := by
  induction l with
  | nil => rfl
  | cons x l ih =>
    simp only [List.map_cons, List.mem_cons, not_or] at h
    simp only [get]
    rw [if_neg (fun e => h.1 e.symm)]
    exact ih h.2

/-- Keys of a dictionary are distinct. -/
def Keys {K W : Type} (l : List (K × W)) : Prop := (l.map Prod.fst).Nodup

theorem put_keys {K W : Type} [DecidableEq K] (k : K) (v : W) (l : List (K × W)) (x : K) :
    x ∈ (put k v l).map Prod.fst ↔ x = k ∨ x ∈ l.map Prod.fst := by
  induction l with
  | nil => simp [put]
  | cons y l ih =>
    obtain ⟨k', v'⟩ := y
    simp only [put]
    by_cases hk : k' = k
    · rw [if_pos hk]
      simp only [List.map_cons, List.mem_cons]
      constructor
      · intro h; exact Or.inr h
      · rintro (h | h)
        · exact Or.inl (h.trans hk.symm)
        · exact h
    · rw [if_neg hk, List.map_cons, List.mem_cons, ih, List.map_cons, List.mem_cons]
      constructor
      · rintro (h | h | h) <;> simp [h]
      · rintro (h | h | h) <;> simp [h]

theorem put_nodup {K W : Type} [DecidableEq K] (k : K) (v : W) (l : List (K × W)) (h : Keys l) : Keys (put k v l) := by
  induction l with
  | nil => simp [put, Keys]
  | cons y l ih =>
    obtain ⟨k', v'⟩ := y
    unfold Keys at h
    rw [List.map_cons, List.nodup_cons] at h
    simp only [put]
    by_cases hk : k' = k
    · rw [if_pos hk]
      unfold Keys
      rw [List.map_cons, List.nodup_cons]
      exact h
    · rw [if_neg hk]
      unfold Keys
      rw [List.map_cons, List.nodup_cons]
      refine ⟨?_, ih h.2⟩
      intro hm
      rcases (put_keys k v l k').mp hm with e | e
      · exact hk e
      · exact h.1 e

theorem get_update {K W : Type} [DecidableEq K] (r : List (K × W)) (hr : Keys r) (d : List (K × W)) (k : K) :
    get k (update d r) = (get k r).or (get k d) := by
  induction r generalizing d with
  | nil => simp [update, get]
  | cons x r ih =>
    obtain ⟨k', v'⟩ := x
    unfold Keys at hr
    rw [List.map_cons, List.nodup_cons] at hr
    have := ih hr.2 (put k' v' d)
    simp only [update, List.foldl_cons] at this ⊢
    rw [this, get_put]
    simp only [get]
    by_cases h : k' = k
    · subst h
      have hn := get_absent k' r hr.1
      simp [hn]
    · rw [if_neg h, if_neg (fun e => h e.symm)]

/-- The counters that a dictionary of counters has for an event. -/
def cell (d : List (N × List ((R × P) × V))) (n : N) (r : R) (p : P) : Option V := (get n d).bind (get (r, p))

/-- Value of an event in one run. -/
theorem perfctr_cell (count : Nat → N × R × P → V) (i : Nat) (run : List (N × R × P)) (n : N) (r : R) (p : P) :
    cell (perfctr count i run) n r p = if (n, r, p) ∈ run then some (count i (n, r, p)) else none := by
  have h : ∀ d : List (N × List ((R × P) × V)),
      cell (run.foldl (fun d e => put e.1 (put (e.2.1, e.2.2) (count i e) ((get e.1 d).getD [])) d) d) n r p =
        if (n, r, p) ∈ run then some (count i (n, r, p)) else cell d n r p := by
    induction run with
    | nil => intro d; simp
    | cons e run ih =>
      intro d
      obtain ⟨n', r', p'⟩ := e
      rw [List.foldl_cons, ih]
      by_cases hm : (n, r, p) ∈ run
      · rw [if_pos hm, if_pos (by simp [hm])]
      · rw [if_neg hm]
        by_cases he : (n, r, p) = (n', r', p')
        · obtain ⟨rfl, h2⟩ := Prod.mk.inj he
          obtain ⟨rfl, rfl⟩ := Prod.mk.inj h2
          simp [cell, get_put]
        · rw [if_neg (by simp only [List.mem_cons, not_or]; exact ⟨he, hm⟩)]
          simp only [cell, get_put]
          by_cases hn : n = n'
          · subst hn
            have hrp : ¬ ((r, p) = (r', p')) := by
              intro h; apply he; rw [Prod.mk.injEq] at h; rw [h.1, h.2]
            rw [if_pos rfl, Option.bind_some, get_put, if_neg hrp]
            cases get n d <;> simp [get]
          · rw [if_neg hn]
  have := h []
  unfold perfctr
  rw [this]
  simp [cell, get]

theorem perfctr_keys (count : Nat → N × R × P → V) (i : Nat) (run : List (N × R × P)) : Keys (perfctr count i run) := by
  unfold perfctr
  have h : ∀ d : List (N × List ((R × P) × V)), Keys d →
      Keys (run.foldl (fun d e => put e.1 (put (e.2.1, e.2.2) (count i e) ((get e.1 d).getD [])) d) d) := by
    induction run with
    | nil => intro d hd; exact hd
    | cons e run ih => intro d hd; exact ih _ (put_nodup _ _ _ hd)
  exact h [] (by simp [Keys])

theorem perfctr_get (count : Nat → N × R × P → V) (i : Nat) (run : List (N × R × P)) (n : N) :
    (get n (perfctr count i run)).isSome ↔ n ∈ run.map Prod.fst := by
  have h : ∀ d : List (N × List ((R × P) × V)),
      (get n (run.foldl (fun d e => put e.1 (put (e.2.1, e.2.2) (count i e) ((get e.1 d).getD [])) d) d)).isSome ↔
        n ∈ run.map Prod.fst ∨ (get n d).isSome := by
    induction run with
    | nil => intro d; simp
    | cons e run ih =>
      intro d
      rw [List.foldl_cons, ih, get_put]
      by_cases hn : n = e.1
      · simp [hn]
      · simp [hn]
  have := h []
  unfold perfctr
  rw [this]
  simp [get]

/-- The last run with the event decides. -/
theorem measureRuns_get (count : Nat → N × R × P → V) (runs : List (List (N × R × P))) (n : N) :
    ∀ (i : Nat) (d : List (N × List ((R × P) × V))),
      (∃ j run, runs[j]? = some run ∧ n ∈ run.map Prod.fst ∧ (∀ k later, j < k → runs[k]? = some later → n ∉ later.map Prod.fst) ∧
        get n (measureRuns count i runs d) = get n (perfctr count (i + j) run)) ∨
      ((∀ run ∈ runs, n ∉ run.map Prod.fst) ∧ get n (measureRuns count i runs d) = get n d) := by
  induction runs with
  | nil => intro i d; right; simp [measureRuns]
  | cons run runs ih =>
    intro i d
    rw [measureRuns]
    rcases ih (i + 1) (update d (perfctr count i run)) with ⟨j, run', h1, h2, h3, h4⟩ | ⟨h1, h2⟩
    · left
      refine ⟨j + 1, run', by simpa using h1, h2, ?_, ?_⟩
      · intro k later hk hl
        obtain ⟨k, rfl⟩ : ∃ k', k = k' + 1 := ⟨k - 1, by omega⟩
        exact h3 k later (by omega) (by simpa using hl)
      · rw [h4]
        congr 2
        omega
    · rw [h2, get_update _ (perfctr_keys count i run)]
      by_cases hn : n ∈ run.map Prod.fst
      · left
        refine ⟨0, run, rfl, hn, ?_, ?_⟩
        · intro k later hk hl
          obtain ⟨k, rfl⟩ : ∃ k', k = k' + 1 := ⟨k - 1, by omega⟩
          exact h1 later (List.mem_of_getElem? (by simpa using hl))
        · obtain ⟨v, hv⟩ := Option.isSome_iff_exists.mp ((perfctr_get count i run n).mpr hn)
          rw [Nat.add_zero, hv]
          rfl
      · right
        refine ⟨?_, ?_⟩
        · intro r hr
          rcases List.mem_cons.mp hr with rfl | hr
          · exact hn
          · exact h1 r hr
        · have : get n (perfctr count i run) = none := by
            cases hg : get n (perfctr count i run) with
            | none => rfl
            | some v => exact absurd ((perfctr_get count i run n).mp (by simp [hg])) hn
          rw [this]
          rfl

/-- A value of an event: some run measured the event with its parameters in a register of its description. -/
def Genuine (opts : D → Gen R) (count : Nat → N × R × P → V) (runs : List (List (N × R × P))) (e : Ev N D P) (v : V) : Prop :=
  ∃ i run r, runs[i]? = some run ∧ r ∈ (opts e.regs).vals ∧ (e.name, r, e.params) ∈ run ∧ v = count i (e.name, r, e.params)

theorem matchRegs_get (sym : S) (params : P) (counters : List ((R × P) × V)) (regs : List R) :
    ∀ (res : List (S × V)) (s : S),
      (s = sym ∧ ∃ r ∈ regs, ∃ v, get (r, params) counters = some v ∧ get s (matchRegs sym params counters regs res) = some v) ∨
      ((s = sym → ∀ r ∈ regs, get (r, params) counters = none) ∧ get s (matchRegs sym params counters regs res) = get s res) := by
  induction regs with
  | nil => intro res s; right; simp [matchRegs]
  | cons r regs ih =>
    intro res s
    have e : matchRegs sym params counters (r :: regs) res = matchRegs sym params counters regs
      (match get (r, params) counters with | some v => put sym v res | none => res) := rfl
    rw [e]
    rcases ih (match get (r, params) counters with | some v => put sym v res | none => res) s with
      ⟨h1, r', h2, v, h3, h4⟩ | ⟨h1, h2⟩
    · exact Or.inl ⟨h1, r', by simp [h2], v, h3, h4⟩
    · rw [h2]
      cases hg : get (r, params) counters with
      | none =>
        right
        refine ⟨?_, rfl⟩
        intro hs r' hr'
        rcases List.mem_cons.mp hr' with rfl | hr'
        · exact hg
        · exact h1 hs r' hr'
      | some v =>
        simp only [get_put]
        by_cases hs : s = sym
        · left
          exact ⟨hs, r, by simp, v, hg, by rw [if_pos hs]⟩
        · right
          exact ⟨fun h => absurd h hs, by rw [if_neg hs]⟩

omit [DecidableEq D] in
/-- Values are genuine. -/
theorem matchSymbols_sound (opts : D → Gen R) (count : Nat → N × R × P → V) (runs : List (List (N × R × P)))
    (symbols : List (S × Ev N D P)) : ∀ (res out : List (S × V)),
    matchSymbols opts (measureRuns count 0 runs []) symbols res = .ok out → ∀ s v, get s out = some v →
      (∃ e, (s, e) ∈ symbols ∧ Genuine opts count runs e v) ∨ get s res = some v := by
  induction symbols with
  | nil => intro res out h s v hv; cases h; exact Or.inr hv
  | cons x rest ih =>
    obtain ⟨sym, e⟩ := x
    intro res out h s v hv
    rw [matchSymbols] at h
    split at h
    · split at h
      · split at h
        · cases h
        · rcases ih _ _ h s v hv with ⟨e', h1, h2⟩ | h1
          · exact Or.inl ⟨e', by simp [h1], h2⟩
          · exact Or.inr h1
      · cases h
    · rename_i counters hc
      split at h
      · cases h
      · rcases ih _ _ h s v hv with ⟨e', h1, h2⟩ | h1
        · exact Or.inl ⟨e', by simp [h1], h2⟩
        · rcases matchRegs_get sym e.params counters (opts e.regs).vals res s with ⟨h2, r, h3, w, h4, h5⟩ | ⟨h2, h3⟩
          · left
            refine ⟨e, by simp [h2], ?_⟩
            rw [h5] at h1
            have hw := Option.some.inj h1
            subst hw
            rcases measureRuns_get count runs e.name 0 [] with ⟨j, run, g1, g2, g3, g4⟩ | ⟨g1, g2⟩
            · refine ⟨j, run, r, g1, h3, ?_⟩
              have hcell := perfctr_cell count (0 + j) run e.name r e.params
              unfold cell at hcell
              rw [← g4, hc, Option.bind_some, h4] at hcell
              split at hcell
              · rename_i hm
                refine ⟨hm, ?_⟩
                rw [Nat.zero_add] at hcell
                exact Option.some.inj hcell
              · cases hcell
            · rw [g2] at hc
              cases hc
          · exact Or.inr (h3 ▸ h1)

/-- C75: every value that a symbol gets was measured for its event and parameters, in a register of its description. -/
theorem C75_sound (opts : D → Gen R) (count : Nat → N × R × P → V) (symbols : List (S × Ev N D P)) (fuel : Nat)
    (out : List (S × V)) (h : counters opts count symbols fuel = some (.ok out)) (s : S) (v : V) (hv : get s out = some v) :
    ∃ runs e, buildRuns opts (symbols.map Prod.snd) fuel = some (.ok runs) ∧ (s, e) ∈ symbols ∧ Genuine opts count runs e v := by
  unfold counters at h
  rw [Option.map_eq_some_iff] at h
  obtain ⟨b, h1, h2⟩ := h
  cases b with
  | error x => cases h2
  | ok runs =>
    rcases matchSymbols_sound opts count runs symbols [] out h2 s v hv with ⟨e, g1, g2⟩ | g
    · exact ⟨runs, e, h1, g1, g2⟩
    · cases g

omit [DecidableEq D] in
theorem matchSymbols_complete (opts : D → Gen R) (count : Nat → N × R × P → V) (runs : List (List (N × R × P)))
    (hd : ∀ (i j : Nat) (ri rj : List (N × R × P)), i < j → runs[i]? = some ri → runs[j]? = some rj → ∀ n ∈ ri.map Prod.fst, n ∉ rj.map Prod.fst)
    (symbols : List (S × Ev N D P)) : ∀ res : List (S × V),
    (∀ x ∈ symbols, (opts x.2.regs).raises = false ∧ ∃ (i : Nat) (run : List (N × R × P)) (r : R), runs[i]? = some run ∧ r ∈ (opts x.2.regs).vals ∧
      (x.2.name, r, x.2.params) ∈ run) →
    ∃ out, matchSymbols opts (measureRuns count 0 runs []) symbols res = .ok out ∧
      ∀ s, (s ∈ symbols.map Prod.fst ∨ (get s res).isSome) → (get s out).isSome := by
  induction symbols with
  | nil => intro res _; exact ⟨res, rfl, fun s h => by simpa using h⟩
  | cons x rest ih =>
    obtain ⟨sym, e⟩ := x
    intro res hx
    obtain ⟨hra, i, run, r, h1, h2, h3⟩ := hx (sym, e) (by simp)
    have hn : e.name ∈ run.map Prod.fst := List.mem_map.mpr ⟨_, h3, rfl⟩
    rcases measureRuns_get count runs e.name 0 [] with ⟨j, run', g1, g2, g3, g4⟩ | ⟨g1, g2⟩
    · have hij : i = j := by
        rcases lt_trichotomy i j with h | h | h
        · exact absurd g2 (hd i j run run' h h1 g1 _ hn)
        · exact h
        · exact absurd hn (g3 i run h h1)
      subst hij
      rw [h1] at g1
      obtain rfl := Option.some.inj g1
      obtain ⟨cs, hcs⟩ := Option.isSome_iff_exists.mp ((perfctr_get count (0 + i) run e.name).mpr hn)
      rw [hcs] at g4
      have hcell := perfctr_cell count (0 + i) run e.name r e.params
      unfold cell at hcell
      rw [hcs, Option.bind_some, if_pos h3] at hcell
      rw [matchSymbols, g4]
      simp only at hra
      simp only [hra, Bool.false_eq_true, if_false]
      obtain ⟨out, o1, o2⟩ := ih (matchRegs sym e.params cs (opts e.regs).vals res) (fun x hx' => hx x (by simp [hx']))
      refine ⟨out, o1, ?_⟩
      intro s hs
      apply o2
      rcases matchRegs_get sym e.params cs (opts e.regs).vals res s with ⟨k1, r', k2, v, k3, k4⟩ | ⟨k1, k2⟩
      · right; rw [k4]; rfl
      · rw [k2]
        rcases hs with hs | hs
        · simp only [List.map_cons, List.mem_cons] at hs
          rcases hs with hs | hs
          · have := k1 hs r h2
            rw [hcell] at this
            cases this
          · exact Or.inl hs
        · exact Or.inr hs
    · exact absurd hn (g1 run (List.mem_of_getElem? h1))

/-- C75, for plans that measure no event in two runs: there is no exception and every symbol gets a value. Missing: events
that are measured in several runs, with different parameters or registers, see the negation. -/
theorem C75_complete_partial (opts : D → Gen R) (count : Nat → N × R × P → V) (symbols : List (S × Ev N D P)) (fuel : Nat)
    (runs : List (List (N × R × P))) (hb : buildRuns opts (symbols.map Prod.snd) fuel = some (.ok runs))
    (hr : ∀ x ∈ symbols, (opts x.2.regs).raises = false)
    (hd : ∀ (i j : Nat) (ri rj : List (N × R × P)), i < j → runs[i]? = some ri → runs[j]? = some rj → ∀ n ∈ ri.map Prod.fst, n ∉ rj.map Prod.fst) :
    ∃ out, counters opts count symbols fuel = some (.ok out) ∧
      ∀ x ∈ symbols, ∃ v, get x.1 out = some v ∧ ∃ e, (x.1, e) ∈ symbols ∧ Genuine opts count runs e v := by
  obtain ⟨plan, ⟨v1, v2, v3, v4⟩, _⟩ := C28_valid_plan opts _ fuel runs hb
  have hs : ∀ x ∈ symbols, (opts x.2.regs).raises = false ∧ ∃ (i : Nat) (run : List (N × R × P)) (r : R), runs[i]? = some run ∧ r ∈ (opts x.2.regs).vals ∧
      (x.2.name, r, x.2.params) ∈ run := by
    intro x hx
    refine ⟨hr x hx, ?_⟩
    have hc := v2 x.2
    rw [if_pos (List.mem_map.mpr ⟨x, hx, rfl⟩)] at hc
    have hm : x.2 ∈ plan.flatten.map (·.1) := List.count_pos_iff.mp (by omega)
    obtain ⟨y, hy, hye⟩ := List.mem_map.mp hm
    obtain ⟨run, hrun, hyr⟩ := List.mem_flatten.mp hy
    obtain ⟨i, hi⟩ := List.mem_iff_getElem?.mp hrun
    refine ⟨i, run.map (fun z => (z.1.name, z.2, z.1.params)), y.2, ?_, ?_, ?_⟩
    · rw [v1, List.getElem?_map, hi]; rfl
    · rw [← hye]; exact v3 y hy
    · rw [← hye]; exact List.mem_map.mpr ⟨y, hyr, rfl⟩
  obtain ⟨out, o1, o2⟩ := matchSymbols_complete opts count runs hd symbols [] hs
  refine ⟨out, ?_, ?_⟩
  · unfold counters
    rw [hb]
    exact congrArg some o1
  · intro x hx
    obtain ⟨v, hv⟩ := Option.isSome_iff_exists.mp (o2 x.1 (Or.inl (List.mem_map.mpr ⟨x, hx, rfl⟩)))
    refine ⟨v, hv, ?_⟩
    rcases matchSymbols_sound opts count runs symbols [] out o1 x.1 v hv with h | h
    · exact h
    · cases h

/-- C75, for symbols with different event names. -/
theorem C75_names_partial (opts : D → Gen R) (count : Nat → N × R × P → V) (symbols : List (S × Ev N D P)) (fuel : Nat)
    (runs : List (List (N × R × P))) (hb : buildRuns opts (symbols.map Prod.snd) fuel = some (.ok runs))
    (hr : ∀ x ∈ symbols, (opts x.2.regs).raises = false)
    (hn : ∀ x ∈ symbols, ∀ y ∈ symbols, x.2.name = y.2.name → x.2 = y.2) :
    ∃ out, counters opts count symbols fuel = some (.ok out) ∧
      ∀ x ∈ symbols, ∃ v, get x.1 out = some v ∧ ∃ e, (x.1, e) ∈ symbols ∧ Genuine opts count runs e v := by
  refine C75_complete_partial opts count symbols fuel runs hb hr ?_
  obtain ⟨plan, ⟨v1, v2, v3, v4⟩, _⟩ := C28_valid_plan opts _ fuel runs hb
  intro i j ri rj hij hi hj n hni hnj
  subst v1
  rw [List.getElem?_map, Option.map_eq_some_iff] at hi hj
  obtain ⟨pi, hpi, rfl⟩ := hi
  obtain ⟨pj, hpj, rfl⟩ := hj
  simp only [List.map_map, List.mem_map, Function.comp_apply] at hni hnj
  obtain ⟨a, ha, hae⟩ := hni
  obtain ⟨b, hb', hbe⟩ := hnj
  have hin : ∀ z ∈ plan.flatten, z.1 ∈ symbols.map Prod.snd := by
    intro z hz
    by_contra hno
    have := v2 z.1
    rw [if_neg hno, List.count_eq_zero] at this
    exact this (List.mem_map.mpr ⟨z, hz, rfl⟩)
  obtain ⟨x, hx, hxa⟩ := List.mem_map.mp (hin a (List.mem_flatten.mpr ⟨pi, List.mem_of_getElem? hpi, ha⟩))
  obtain ⟨y, hy, hyb⟩ := List.mem_map.mp (hin b (List.mem_flatten.mpr ⟨pj, List.mem_of_getElem? hpj, hb'⟩))
  have heq : a.1 = b.1 := by
    rw [← hxa, ← hyb]
    exact hn x hx y hy (by rw [hxa, hyb, hae, hbe])
  have h2 : 2 ≤ (plan.flatten.map (·.1)).count a.1 := by
    obtain ⟨hli, hgi⟩ := List.getElem?_eq_some_iff.mp hpi
    obtain ⟨hlj, hgj⟩ := List.getElem?_eq_some_iff.mp hpj
    have hsplit : plan = plan.take j ++ plan.drop j := (List.take_append_drop j plan).symm
    rw [hsplit, List.flatten_append, List.map_append, List.count_append]
    have c1 : 1 ≤ ((plan.take j).flatten.map (·.1)).count a.1 := by
      apply List.count_pos_iff.mpr
      refine List.mem_map.mpr ⟨a, List.mem_flatten.mpr ⟨pi, ?_, ha⟩, rfl⟩
      apply List.mem_of_getElem? (i := i)
      rw [List.getElem?_take, if_pos hij, hpi]
    have c2 : 1 ≤ ((plan.drop j).flatten.map (·.1)).count a.1 := by
      apply List.count_pos_iff.mpr
      rw [heq]
      refine List.mem_map.mpr ⟨b, List.mem_flatten.mpr ⟨pj, ?_, hb'⟩, rfl⟩
      apply List.mem_of_getElem? (i := 0)
      rw [List.getElem?_drop, Nat.add_zero, hpj]
    omega
  have := v2 a.1
  split at this <;> omega

end

/-- Two events for one register, a third one beside. -/
example : (counters (fun d : List Nat => (⟨d, false⟩ : Gen Nat)) (fun i e => (i, e.1))
    [("a", (⟨0, [0, 1], ()⟩ : Ev Nat (List Nat) Unit)), ("b", ⟨1, [0], ()⟩), ("c", ⟨2, [0, 1], ()⟩)] 4).map Except.toOption =
    some (some [("a", 0, 0), ("b", 1, 1), ("c", 0, 2)]) := by decide +kernel

/-- C75, negation: two symbols for the same event with different parameters in the same register. The counter of the
first run is lost and the first symbol has no value. -/
theorem C75_negation : ∃ (opts : List Nat → Gen Nat) (count : Nat → Nat × Nat × Nat → Nat)
    (symbols : List (String × Ev Nat (List Nat) Nat)) (fuel : Nat) (runs : List (List (Nat × Nat × Nat))),
    buildRuns opts (symbols.map Prod.snd) fuel = some (.ok runs) ∧ (0, 0, 1) ∈ runs.flatten ∧
    (∀ x ∈ symbols, (opts x.2.regs).raises = false) ∧
    ∃ out, counters opts count symbols fuel = some (.ok out) ∧ ∃ x ∈ symbols, x.2 = ⟨0, [0], 1⟩ ∧ get x.1 out = none :=
  ⟨fun d => ⟨d, false⟩, fun i _ => i, [("a", ⟨0, [0], 1⟩), ("b", ⟨0, [0], 2⟩)], 2, [[(0, 0, 1)], [(0, 0, 2)]],
    by decide +kernel, by decide, by decide, [("b", 1)], by decide +kernel, ("a", ⟨0, [0], 1⟩), by decide, rfl, by decide⟩

end Verif.Measure
