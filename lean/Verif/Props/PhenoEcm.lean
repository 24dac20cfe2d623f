import Verif.Model.PhenoEcm
import Verif.Model.Perf
import Mathlib.Tactic.FieldSimp
import Mathlib.Tactic.NormNum

/-!
C109, C110: results of the benchmark model.
-/

namespace Verif.PhenoEcm

open Verif.Transfer

/-! ### C109 -/

/-- C109: the numbers belong to the same measurement. `repetitions` calls with `iterations` iterations each took `time` seconds; the work
of an iteration is `flops` operations and `bytes` written bytes. -/
theorem C109_measurement (clSize bytes iterations time clock repetitions : ℚ) (flops : Nat) (gbytes : Option ℚ) (hb : 0 < bytes) (hc : 0 < clSize)
    (hi : 0 < iterations) (ht : 0 < time) (hr : 0 < repetitions) :
    ∃ n, numbers clSize bytes iterations (time / repetitions) clock repetitions flops gbytes = some n ∧
      n.runtime * repetitions = time ∧
      n.cyCl * (repetitions * iterations * bytes / clSize) = time * clock ∧
      n.mflops * 10 ^ 6 * time = repetitions * iterations * flops ∧
      n.mits * 10 ^ 6 * time = repetitions * iterations ∧ n.mlups = n.mits ∧
      n.volume.map (· * repetitions) = gbytes.map (· * 10 ^ 9) := by
  have h0 : ¬ (bytes = 0 ∨ iterations = 0 ∨ time / repetitions = 0 ∨ repetitions = 0) := by
    have : 0 < time / repetitions := by positivity
    rintro (h | h | h | h)
    · exact hb.ne' h
    · exact hi.ne' h
    · exact this.ne' h
    · exact hr.ne' h
  simp only [numbers, if_neg h0]
  refine ⟨_, rfl, ?_, ?_, ?_, ?_, rfl, ?_⟩
  · field_simp
  · field_simp
  · simp only
    field_simp
    ring
  · simp only
    field_simp
    ring
  · cases gbytes with
    | none => rfl
    | some g =>
      simp only [Option.map_some, Option.some.injEq]
      field_simp
      ring

example : ∃ n, numbers 64 8 1000 (3 / 2 / 500) (2 * 10 ^ 9) 500 2 (some 4) = some n ∧ n.mflops * 10 ^ 6 * (3 / 2) = 500 * 1000 * 2 := by
  obtain ⟨n, h1, -, -, h2, -⟩ := C109_measurement 64 8 1000 (3 / 2) (2 * 10 ^ 9) 500 2 (some 4) (by norm_num) (by norm_num) (by norm_num) (by norm_num)
    (by norm_num)
  exact ⟨n, h1, by exact_mod_cast h2⟩

/-- C109: cycles of a measurement are converted to iterations per second and operations per second as those of a prediction. The
inner-most loop has the step 1, and elements fill a cacheline. -/
theorem C109_conversion_partial (el elSize : Nat) (sizes : List Nat) (steps : List Int) (iterations timePer clock repetitions : ℚ) (flops : Nat)
    (gbytes : Option ℚ) (n : Numbers) (bytes : Int) (hel : 0 < el) (he : 0 < elSize) (hs : sizes.head? = some elSize) (hstep : steps.getLast? = some 1)
    (hc : 0 < clock) (hi : 0 < iterations) (ht : 0 < timePer)
    (hb : bytesPerIteration sizes steps = some bytes)
    (h : numbers (el * elSize : Nat) bytes iterations timePer clock repetitions flops gbytes = some n) :
    ∃ c, Perf.convData clock n.cyCl (el * elSize) elSize flops = some c ∧ c.itS = .fin (n.mits * 10 ^ 6) ∧ c.flopS = .fin (n.mflops * 10 ^ 6) := by
  simp only [bytesPerIteration, hs, hstep, mul_one, Option.some.injEq] at hb
  subst hb
  unfold numbers at h
  split at h
  · simp at h
  simp only [Option.some.injEq] at h
  subst h
  have he' : (elSize : ℚ) ≠ 0 := by exact_mod_cast he.ne'
  have hel' : (el : ℚ) ≠ 0 := by exact_mod_cast hel.ne'
  have hcy : timePer * clock / iterations * (((el * elSize : Nat) : ℚ) / ((elSize : Int) : ℚ)) = timePer * clock / iterations * el := by
    push_cast
    field_simp
  have hne : timePer * clock / iterations * (el : ℚ) ≠ 0 := by
    have : 0 < timePer * clock / iterations := by positivity
    exact mul_ne_zero this.ne' hel'
  simp only [Perf.convData, if_neg he.ne', Nat.mul_div_cancel _ he, if_neg hel.ne', hcy, ne_eq, hne, not_false_eq_true, if_true]
  refine ⟨_, rfl, ?_, ?_⟩
  · rw [show (10 : ℚ) ^ 6 = 1000000 by norm_num]
    congr 1
    field_simp
  · rw [show (10 : ℚ) ^ 6 = 1000000 by norm_num]
    simp only [Perf.Val.scale, Perf.Val.fin.injEq]
    field_simp

example : ∃ n c, numbers 64 8 1000 (1 / 10 ^ 6) (2 * 10 ^ 9) 5 2 none = some n ∧ n.cyCl = 16 ∧
    Perf.convData (2 * 10 ^ 9) n.cyCl (8 * 8) 8 2 = some c ∧ c.itS = .fin (1000 * 10 ^ 6) := by
  have h : numbers ((8 * 8 : Nat) : ℚ) ((8 : Int) : ℚ) 1000 (1 / 10 ^ 6) (2 * 10 ^ 9) 5 2 none =
      some ⟨1 / 10 ^ 6, 16, 2000, 1000, 1000, none⟩ := by
    norm_num [numbers]
  obtain ⟨c, h1, h2, -⟩ := C109_conversion_partial 8 8 [8] [3, 1] 1000 (1 / 10 ^ 6) (2 * 10 ^ 9) 5 2 none _ 8 (by norm_num) (by norm_num) rfl rfl
    (by norm_num) (by norm_num) (by norm_num) rfl h
  exact ⟨_, c, by rw [← h]; norm_num, rfl, h1, h2⟩

/-- C109: the exact condition. The measured cycles are converted to the measured performance if and only if the step of the inner loop is
one. -/
theorem C109_conversion_iff (el elSize : Nat) (sizes : List Nat) (steps : List Int) (step : Int) (iterations timePer clock repetitions : ℚ)
    (flops : Nat) (gbytes : Option ℚ) (n : Numbers) (bytes : Int) (hel : 0 < el) (he : 0 < elSize) (hs : sizes.head? = some elSize)
    (hstep : steps.getLast? = some step) (hc : 0 < clock) (hi : 0 < iterations) (ht : 0 < timePer)
    (hb : bytesPerIteration sizes steps = some bytes)
    (h : numbers (el * elSize : Nat) bytes iterations timePer clock repetitions flops gbytes = some n) :
    (∃ c, Perf.convData clock n.cyCl (el * elSize) elSize flops = some c ∧ c.itS = .fin (n.mits * 10 ^ 6) ∧
      c.flopS = .fin (n.mflops * 10 ^ 6)) ↔ step = 1 := by
  constructor
  · rintro ⟨c, h1, h2, -⟩
    simp only [bytesPerIteration, hs, hstep, Option.some.injEq] at hb
    subst hb
    unfold numbers at h
    split at h
    · simp at h
    rename_i hz
    simp only [Option.some.injEq] at h
    subst h
    push Not at hz
    have he' : (elSize : ℚ) ≠ 0 := by exact_mod_cast he.ne'
    have hel' : (el : ℚ) ≠ 0 := by exact_mod_cast hel.ne'
    have hst : (step : ℚ) ≠ 0 := by
      intro h0
      apply hz.1
      push_cast
      rw [h0, mul_zero]
    have hcy : timePer * clock / iterations * (((el * elSize : Nat) : ℚ) / (((elSize : Int) * step : Int) : ℚ)) =
        timePer * clock * el / (iterations * step) := by
      push_cast
      field_simp
    have hne : timePer * clock * el / (iterations * step) ≠ 0 :=
      div_ne_zero (mul_ne_zero (mul_pos ht hc).ne' hel') (mul_ne_zero hi.ne' hst)
    simp only [Perf.convData, if_neg he.ne', Nat.mul_div_cancel _ he, if_neg hel.ne', hcy, ne_eq, hne, not_false_eq_true, if_true,
      Option.some.injEq] at h1
    subst h1
    simp only [Perf.Val.fin.injEq] at h2
    have e1 : clock / (timePer * clock * el / (iterations * step)) * el = iterations / timePer * step := by
      have := hc.ne'; have := ht.ne'; have := hi.ne'
      field_simp
    rw [e1, show iterations / timePer / 1000000 * 10 ^ 6 = iterations / timePer by ring] at h2
    have hp : iterations / timePer ≠ 0 := (div_pos hi ht).ne'
    have : (step : ℚ) = 1 := mul_left_cancel₀ hp (by rw [h2, mul_one])
    exact_mod_cast this
  · rintro rfl
    exact C109_conversion_partial el elSize sizes steps iterations timePer clock repetitions flops gbytes n bytes hel he hs hstep hc hi ht hb h

example : ¬ ∃ c, Perf.convData (2 * 10 ^ 9) 8 (8 * 8) 8 2 = some c ∧ c.itS = .fin (1000 * 10 ^ 6) ∧ c.flopS = .fin (2000 * 10 ^ 6) := by
  have h : numbers ((8 * 8 : Nat) : ℚ) ((16 : Int) : ℚ) 1000 (1 / 10 ^ 6) (2 * 10 ^ 9) 5 2 none =
      some ⟨1 / 10 ^ 6, 8, 2000, 1000, 1000, none⟩ := by
    norm_num [numbers]
  rw [C109_conversion_iff 8 8 [8] [3, 2] 2 1000 (1 / 10 ^ 6) (2 * 10 ^ 9) 5 2 none ⟨1 / 10 ^ 6, 8, 2000, 1000, 1000, none⟩ 16
    (by norm_num) (by norm_num) rfl rfl (by norm_num) (by norm_num) (by norm_num) rfl h]
  decide

/-- With a step of 2 the same cycles are twice as many iterations per second if they are predicted as if they are measured. -/
theorem C109_negation_step : ∃ n c, bytesPerIteration [8] [2] = some 16 ∧ numbers 64 16 1000 (1 / 10 ^ 6) (2 * 10 ^ 9) 5 2 none = some n ∧
    Perf.convData (2 * 10 ^ 9) n.cyCl 64 8 2 = some c ∧ n.mits = 1000 ∧ c.itS = .fin (2000 * 10 ^ 6) := by
  refine ⟨⟨1 / 10 ^ 6, 8, 2000, 1000, 1000, none⟩, ⟨.fin (2000 * 10 ^ 6), 8, 1, .fin (4000 * 10 ^ 6)⟩, by decide, by norm_num [numbers], ?_, rfl, rfl⟩
  norm_num [Perf.convData, Perf.Val.scale]

/-! ### C110 -/

/-- C110: transfer times from measured volumes `v` are those that the analytical model calculates from the same volumes per cacheline of
work: three half-duplex caches, no penalties, and the same bandwidth. The time of the overlapping model is its metric per cacheline. -/
theorem C110_transfers_partial (el elSize : Nat) (clock total tOL tData r1 r2 b : ℚ) (l1 l2 l3 mem : Level) (v : String → String → ℚ)
    (bw : ℚ → ℚ → Except String ℚ) (bw' : Nat → ℚ → ℚ → Except Err ℚ) (loads stores : ℚ) (hel : 0 < el) (he : 0 < elSize) (ht : 0 < total)
    (hr1 : 0 < r1) (hr2 : 0 < r2) (hb : 0 < b) (h2 : l2.rate = .perCycle r1) (h2d : l2.duplex = "half-duplex") (h3 : l3.rate = .perCycle r2)
    (h3d : l3.duplex = "half-duplex") (hm : mem.rate = .memory) (hmd : mem.duplex = "half-duplex") (hml : mem.loadPenalty = none)
    (hms : mem.storePenalty = none) (hbw : bw (v "L3" "misses") (v "L3" "evicts") = .ok b)
    (hbw' : bw' 3 (v "MEM" "loads" / total) (v "MEM" "stores" / total) = .ok b) :
    ∃ e, ecm ((el * elSize : Nat) : ℚ) clock total tOL tData [l1, l2, l3, mem] bw (fun l k => some (v l k)) = .ok e ∧ e.tOL * total = tOL ∧
      calculateCycles (el * elSize) elSize clock bw' [loads, v "L2" "loads" / total, v "L3" "loads" / total, v "MEM" "loads" / total]
        [stores, v "L2" "stores" / total, v "L3" "stores" / total, v "MEM" "stores" / total] [l1, l2, l3, mem] =
        .ok ([(l2.name, e.tL1L2), (l3.name, e.tL2L3), (mem.name, e.tMEM)], 0) := by
  have hcl : ((el * elSize : Nat) : ℚ) ≠ 0 := by exact_mod_cast (Nat.mul_pos hel he).ne'
  have hcl' : (el : ℚ) * elSize ≠ 0 := by exact_mod_cast (Nat.mul_pos hel he).ne'
  have e1 : r1 / ((el * elSize : Nat) : ℚ) ≠ 0 := div_ne_zero hr1.ne' hcl
  have e2 : r2 / ((el * elSize : Nat) : ℚ) ≠ 0 := div_ne_zero hr2.ne' hcl
  refine ⟨⟨tOL / total, v "L1" "loads" / total * (1 / 2), (v "L2" "loads" + v "L2" "stores") / total * (el * elSize : Nat) / r1,
    (v "L3" "loads" + v "L3" "stores") / total * (el * elSize : Nat) / r2,
    (v "MEM" "loads" + v "MEM" "stores") * (el * elSize : Nat) / total / b * clock⟩, ?_, ?_, ?_⟩
  · simp only [ecm, rateOf, value, h2, h3, hbw, if_neg ht.ne', if_neg hr1.ne', if_neg hr2.ne', List.getElem?_cons_succ,
      List.getElem?_cons_zero, bind, Except.bind]
    rw [if_neg hb.ne']
    rfl
  · field_simp
  · have t1 : (v "L2" "loads" / total + v "L2" "stores" / total) / (r1 / ((el * elSize : Nat) : ℚ)) =
        (v "L2" "loads" + v "L2" "stores") / total * (el * elSize : Nat) / r1 := by field_simp
    have t2 : (v "L3" "loads" / total + v "L3" "stores" / total) / (r2 / ((el * elSize : Nat) : ℚ)) =
        (v "L3" "loads" + v "L3" "stores") / total * (el * elSize : Nat) / r2 := by field_simp
    have t3 : (v "MEM" "loads" / total + v "MEM" "stores" / total) * (el : ℚ) * elSize * clock / b =
        (v "MEM" "loads" + v "MEM" "stores") * (el * elSize : Nat) / total / b * clock := by
      push_cast
      field_simp
    simp only [calculateCycles, if_neg he.ne', List.tail_cons, timesFrom, levelTime, h2, h3, hm, hbw', cacheTime, memTime, levelPenalty, h2d, h3d, hmd,
      hml, hms, List.getElem?_cons_succ, List.getElem?_cons_zero, if_neg hcl, if_neg e1, if_neg e2, if_neg hb.ne', if_true, Nat.mul_div_cancel _ he,
      bind, Except.bind, List.nil_append, List.cons_append, add_zero, zero_add, t1, t2, t3, Nat.reduceAdd]

/-- A cache level. -/
def cache (name : String) (rate : ℚ) (duplex : String) : Level := ⟨name, .perCycle rate, duplex, none, none⟩

/-- A memory level. -/
def memory : Level := ⟨"MEM", .memory, "half-duplex", none, none⟩

example : ∃ e, ecm 64 2000 10 30 0 [cache "L1" 1 "half-duplex", cache "L2" 64 "half-duplex", cache "L3" 32 "half-duplex", memory] (fun _ _ => .ok 8000)
      (fun l k => some (if k = "loads" then (if l = "MEM" then 20 else 30) else 10)) = .ok e ∧ e.tOL = 3 ∧ e.tL1L2 = 4 ∧ e.tL2L3 = 8 := by
  obtain ⟨e, h1, h2, h3⟩ := C110_transfers_partial 8 8 2000 10 30 0 64 32 8000 (cache "L1" 1 "half-duplex") (cache "L2" 64 "half-duplex")
    (cache "L3" 32 "half-duplex") memory (fun l k => if k = "loads" then (if l = "MEM" then 20 else 30) else 10) (fun _ _ => .ok 8000)
    (fun _ _ _ => .ok 8000) 0 0 (by norm_num) (by norm_num) (by norm_num) (by norm_num) (by norm_num) (by norm_num) rfl rfl rfl rfl rfl rfl rfl rfl rfl rfl
  refine ⟨e, by simpa using h1, by linarith, ?_, ?_⟩
  all_goals
    norm_num [calculateCycles, timesFrom, levelTime, cache, memory, cacheTime, memTime, levelPenalty, bind, Except.bind, show ("stores" : String) ≠ "loads" by decide,
      show ("L2" : String) ≠ "MEM" by decide, show ("L3" : String) ≠ "MEM" by decide] at h3
    first | exact h3.1.symm | exact h3.2.1.symm

/-- C110: all times refer to one cacheline of work: times the cachelines of work, i.e. bytes of all iterations by the size of a cacheline, they are the
metric of the overlapping model, half a cycle per load, and the time of all transferred cachelines. -/
theorem C110_per_cacheline (clSize clock bytesPerIt iterations repetitions tOL tData : ℚ) (hierarchy : List Level) (bw : ℚ → ℚ → Except String ℚ)
    (m : String → String → Option ℚ) (e : Ecm) (hcl : 0 < clSize) (hb : 0 < bytesPerIt)
    (h : ecm clSize clock (totalCachelines clSize bytesPerIt iterations repetitions) tOL tData hierarchy bw m = .ok e) :
    let work := iterations * repetitions * bytesPerIt / clSize
    ∃ loads r1 r2 b v2 v3 vm, m "L1" "loads" = some loads ∧ rateOf hierarchy 1 = .ok r1 ∧ rateOf hierarchy 2 = .ok r2 ∧
      (∃ x y, m "L3" "misses" = some x ∧ m "L3" "evicts" = some y ∧ bw x y = .ok b) ∧
      (∃ x y, m "L2" "loads" = some x ∧ m "L2" "stores" = some y ∧ v2 = x + y) ∧ (∃ x y, m "L3" "loads" = some x ∧ m "L3" "stores" = some y ∧ v3 = x + y) ∧
      (∃ x y, m "MEM" "loads" = some x ∧ m "MEM" "stores" = some y ∧ vm = x + y) ∧
      e.tOL * work = tOL ∧ 2 * (e.tnOL * work) = loads ∧ e.tL1L2 * work * r1 = v2 * clSize ∧ e.tL2L3 * work * r2 = v3 * clSize ∧
      e.tMEM * work * b = vm * clSize * clock := by
  intro work
  have hw : totalCachelines clSize bytesPerIt iterations repetitions = work := by
    unfold totalCachelines work; field_simp
  rw [hw] at h
  unfold ecm value at h
  simp only [bind, Except.bind, pure, Except.pure, throw, throwThe, MonadExceptOf.throw] at h
  have hw0 : work ≠ 0 := by
    intro h0
    rw [if_pos h0] at h
    simp at h
  rw [if_neg hw0] at h
  rcases a1 : m "L1" "loads" with _ | a1v
  · simp [a1] at h
  simp only [a1] at h
  rcases a2 : m "L1" "stores" with _ | a2v
  · simp [a2] at h
  simp only [a2] at h
  rcases a3 : m "L3" "misses" with _ | a3v
  · simp [a3] at h
  simp only [a3] at h
  rcases a4 : m "L3" "evicts" with _ | a4v
  · simp [a4] at h
  simp only [a4] at h
  rcases b1 : bw a3v a4v with _ | b1v
  · simp [b1] at h
  simp only [b1] at h
  rcases a5 : m "L2" "loads" with _ | a5v
  · simp [a5] at h
  simp only [a5] at h
  rcases a6 : m "L2" "stores" with _ | a6v
  · simp [a6] at h
  simp only [a6] at h
  rcases r1 : rateOf hierarchy 1 with _ | r1v
  · simp [r1] at h
  simp only [r1] at h
  rcases a7 : m "L3" "loads" with _ | a7v
  · simp [a7] at h
  simp only [a7] at h
  rcases a8 : m "L3" "stores" with _ | a8v
  · simp [a8] at h
  simp only [a8] at h
  rcases r2 : rateOf hierarchy 2 with _ | r2v
  · simp [r2] at h
  simp only [r2] at h
  rcases a9 : m "MEM" "loads" with _ | a9v
  · simp [a9] at h
  simp only [a9] at h
  rcases a10 : m "MEM" "stores" with _ | a10v
  · simp [a10] at h
  simp only [a10] at h
  have hr : ∀ i r, rateOf hierarchy i = .ok r → r ≠ 0 := by
    intro i r hr
    unfold rateOf at hr
    split at hr
    · simp at hr
    · split at hr
      · split at hr
        · simp at hr
        · rename_i h0; simp only [Except.ok.injEq] at hr; exact hr ▸ h0
      · simp at hr
  have hr1 := hr 1 _ r1
  have hr2 := hr 2 _ r2
  have hb0 : b1v ≠ 0 := by
    intro h0
    rw [if_pos h0] at h
    simp at h
  rw [if_neg hb0] at h
  simp only [Except.ok.injEq] at h
  subst h
  refine ⟨_, _, _, _, _, _, _, rfl, rfl, rfl, ⟨_, _, rfl, rfl, b1⟩, ⟨_, _, rfl, rfl, rfl⟩, ⟨_, _, rfl, rfl, rfl⟩, ⟨_, _, rfl, rfl, rfl⟩, ?_, ?_, ?_, ?_, ?_⟩ <;>
    field_simp

/-- 25 cachelines of work: 100 iterations of 8 bytes, twice. -/
example : ecm 64 2000 (totalCachelines 64 8 100 2) 750 0 [cache "L1" 1 "half-duplex", cache "L2" 64 "half-duplex", cache "L3" 32 "half-duplex", memory]
    (fun _ _ => .ok 8000) (fun _ _ => some 75) = .ok ⟨30, 3 / 2, 6, 12, 96⟩ := by
  norm_num [ecm, totalCachelines, rateOf, value, cache, memory, bind, Except.bind, pure, Except.pure]

/-- On a full-duplex link loads and stores overlap in the analytical model, but not in the measured one. -/
theorem C110_negation_duplex : ∃ e t, ecm 64 2000 1 30 0 [cache "L1" 1 "half-duplex", cache "L2" 64 "full-duplex", cache "L3" 32 "half-duplex", memory]
      (fun _ _ => .ok 8000) (fun _ _ => some 3) = .ok e ∧ e.tL1L2 = 6 ∧ cacheTime 64 64 3 3 "full-duplex" = .ok t ∧ t = 3 := by
  refine ⟨⟨30, 3 / 2, 6, 12, 96⟩, 3, ?_, rfl, ?_, rfl⟩
  · norm_num [ecm, rateOf, value, cache, memory, bind, Except.bind, pure, Except.pure]
  · norm_num [cacheTime, show ("full-duplex" : String) ≠ "half-duplex" by decide]

/-- Machines without a third cache have no measured model. -/
theorem C110_negation_levels (clSize clock total tOL tData : ℚ) (hierarchy : List Level) (bw : ℚ → ℚ → Except String ℚ)
    (m : String → String → Option ℚ) (h : m "L3" "misses" = none) (ht : total ≠ 0) : ecm clSize clock total tOL tData hierarchy bw m = .error "KeyError" := by
  unfold ecm value
  rw [if_neg ht, h]
  cases m "L1" "loads" <;> cases m "L1" "stores" <;> rfl

/-- The metric of the non-overlapping model has no influence: the time is half the number of loads. -/
theorem C110_negation_nonoverlapping (clSize clock total tOL : ℚ) (hierarchy : List Level) (bw : ℚ → ℚ → Except String ℚ)
    (m : String → String → Option ℚ) (t1 t2 : ℚ) : ecm clSize clock total tOL t1 hierarchy bw m = ecm clSize clock total tOL t2 hierarchy bw m := rfl

end Verif.PhenoEcm
