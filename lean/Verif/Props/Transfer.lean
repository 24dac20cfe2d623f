import Verif.Model.Transfer
import Verif.Props.Perf
import Mathlib.Data.List.Forall2
import Mathlib.Tactic.NormNum
import Mathlib.Tactic.Linarith
import Mathlib.Tactic.FieldSimp
import Mathlib.Tactic.Positivity
import Mathlib.Tactic.Ring

/-!
C77: transfer times of the ECM model. C78: performance limits of the Roofline model. C79: peak performance and units of
the Roofline model.
-/

namespace Verif.Transfer

open Verif.Perf

/-! ## C77 -/

/-- Specification: cachelines that have to pass the bus one after the other. -/
def busy (duplex : String) (loads stores : ℚ) : Option ℚ :=
  if duplex = "half-duplex" then some (loads + stores)
  else if duplex = "full-duplex" then some (if loads ≤ stores then stores else loads)
  else none

theorem busy_eq (duplex : String) (l s n : ℚ) (h : busy duplex l s = some n) :
    (duplex = "half-duplex" ∧ n = l + s) ∨ (duplex ≠ "half-duplex" ∧ duplex = "full-duplex" ∧ n = max l s) := by
  unfold busy at h
  split at h
  · rename_i hd
    left; exact ⟨hd, by simpa using h.symm⟩
  · rename_i hd
    split at h
    · rename_i hf
      right
      refine ⟨hd, hf, ?_⟩
      simp only [Option.some.injEq] at h
      rw [← h, max_def]
    · simp at h

/-- C77: for a cache level, cycles times throughput (bytes per cycle) are the bytes on the bus. -/
theorem C77_cache_level (clSize rate loads stores n : ℚ) (duplex : String) (hcl : 0 < clSize) (hr : 0 < rate)
    (hn : busy duplex loads stores = some n) :
    ∃ t, cacheTime clSize rate loads stores duplex = .ok t ∧ t * rate = n * clSize := by
  have ht : rate / clSize ≠ 0 := by positivity
  have ht' : 0 < rate / clSize := by positivity
  rcases busy_eq _ _ _ _ hn with ⟨rfl, rfl⟩ | ⟨hd, rfl, rfl⟩
  · refine ⟨(loads + stores) / (rate / clSize), ?_, by field_simp⟩
    simp [cacheTime, hcl.ne', hr.ne']
  · refine ⟨max (loads / (rate / clSize)) (stores / (rate / clSize)), ?_, ?_⟩
    · simp [cacheTime, hcl.ne', hr.ne']
    · rw [max_div_div_right ht'.le]
      field_simp

/-- C77: an unknown duplexness of a cache level is rejected. -/
theorem C77_cache_level_rejected (clSize rate loads stores : ℚ) (duplex : String) (hcl : 0 < clSize)
    (hn : busy duplex loads stores = none) : cacheTime clSize rate loads stores duplex = .error .value := by
  unfold busy at hn
  split at hn
  · simp at hn
  · rename_i h1
    split at hn
    · simp at hn
    · rename_i h2
      simp [cacheTime, hcl.ne', h1, h2]

/-- C77 for memory: cycles times bandwidth (bytes per second) are the bytes on the bus times the clock. Missing: unknown
duplexness (`C77_negation_duplex`), elements that do not fill a cacheline (`C77_negation_element`). -/
theorem C77_memory_partial (el elSize : Nat) (clock bw loads stores n : ℚ) (duplex : String) (he : 0 < elSize)
    (hb : 0 < bw) (hn : busy duplex loads stores = some n) :
    ∃ t, memTime (el * elSize) elSize clock bw loads stores duplex = .ok t ∧
      t * bw = n * (el * elSize : Nat) * clock := by
  have h1 : el * elSize / elSize = el := Nat.mul_div_cancel _ he
  rcases busy_eq _ _ _ _ hn with ⟨rfl, rfl⟩ | ⟨hd, rfl, rfl⟩
  · refine ⟨(loads + stores) * el * elSize * clock / bw, ?_, by push_cast; field_simp⟩
    simp [memTime, hb.ne', h1]
  · refine ⟨max loads stores * el * elSize * clock / bw, ?_, by push_cast; field_simp⟩
    simp [memTime, hb.ne', h1]

/-- C77: the exact condition on the size of elements. If data moves, its time is the one of whole cachelines if and only if elements fill
the cacheline. -/
theorem C77_memory_iff (clSize elSize : Nat) (clock bw loads stores n : ℚ) (duplex : String)
    (hb : 0 < bw) (hc : 0 < clock) (hn : busy duplex loads stores = some n) (hn0 : n ≠ 0) :
    (∃ t, memTime clSize elSize clock bw loads stores duplex = .ok t ∧ t * bw = n * clSize * clock) ↔ elSize ∣ clSize := by
  have key : memTime clSize elSize clock bw loads stores duplex = .ok (n * (clSize / elSize : Nat) * elSize * clock / bw) := by
    rcases busy_eq _ _ _ _ hn with ⟨rfl, rfl⟩ | ⟨hd, rfl, rfl⟩ <;> simp [memTime, hb.ne']
  rw [key]
  constructor
  · rintro ⟨t, ht, h⟩
    rw [Except.ok.injEq] at ht
    subst ht
    rw [div_mul_cancel₀ _ hb.ne', mul_assoc n] at h
    have h1 := mul_left_cancel₀ hn0 (mul_right_cancel₀ hc.ne' h)
    have h2 : clSize / elSize * elSize = clSize := by exact_mod_cast h1
    exact ⟨clSize / elSize, by rw [mul_comm, h2]⟩
  · rintro ⟨el, rfl⟩
    refine ⟨_, rfl, ?_⟩
    rw [div_mul_cancel₀ _ hb.ne', mul_assoc n]
    have : (elSize * el) / elSize * elSize = elSize * el := Nat.div_mul_cancel ⟨el, rfl⟩
    rw [← Nat.cast_mul, this]

example : ¬ ∃ t, memTime 24 16 1 1 1 1 "full-duplex" = .ok t ∧ t * 1 = 1 * (24 : Nat) * 1 := fun h =>
  absurd ((C77_memory_iff 24 16 1 1 1 1 1 "full-duplex" one_pos one_pos rfl one_ne_zero).1 h) (by decide)

/-- C77 is false for memory levels with an unknown duplexness: it counts as full-duplex. -/
theorem C77_negation_duplex : busy "halfduplex" 3 1 = none ∧
    memTime 64 8 2 4 3 1 "halfduplex" = memTime 64 8 2 4 3 1 "full-duplex" ∧
    ∃ t, memTime 64 8 2 4 3 1 "halfduplex" = .ok t := by
  refine ⟨by decide, by simp [memTime], _, rfl⟩

/-- C77 is false for elements that do not divide the cacheline: 16 of 24 bytes are counted. -/
theorem C77_negation_element : ∃ t n, busy "half-duplex" 1 1 = some n ∧
    memTime 24 16 1 1 1 1 "half-duplex" = .ok t ∧ t * 1 ≠ n * (24 : Nat) * 1 := by
  refine ⟨32, 2, by norm_num [busy], ?_, by norm_num⟩
  norm_num [memTime]

/-- What a run over the levels from `i` on has to produce. -/
theorem timesFrom_spec (clSize elSize : Nat) (clock : ℚ) (bw : Nat → ℚ → ℚ → Except Err ℚ) (loads stores : List ℚ) :
    ∀ (ls : List Level) (i : Nat) (cycles : List (String × ℚ)) (penalty : ℚ) (r : List (String × ℚ) × ℚ),
      timesFrom clSize elSize clock bw loads stores i ls cycles penalty = .ok r →
      ∃ ts : List (ℚ × ℚ), ts.length = ls.length ∧
        r.1 = cycles ++ (ls.zip ts).map (fun x => (x.1.name, x.2.1)) ∧
        r.2 = penalty + (ts.map Prod.snd).sum ∧
        ∀ (k : Nat) (l : Level) (t : ℚ × ℚ), ls[k]? = some l → ts[k]? = some t →
          levelTime clSize elSize clock bw loads stores (i + k) l = .ok t
  | [], i, cycles, penalty, r, h => by
    simp only [timesFrom, Except.ok.injEq] at h
    subst h
    exact ⟨[], rfl, by simp, by simp, by simp⟩
  | l :: ls, i, cycles, penalty, r, h => by
    simp only [timesFrom] at h
    cases hl : levelTime clSize elSize clock bw loads stores i l with
    | error e => rw [hl] at h; cases h
    | ok t =>
      rw [hl] at h
      obtain ⟨ts, h1, h2, h3, h4⟩ := timesFrom_spec clSize elSize clock bw loads stores ls (i + 1) _ _ r h
      refine ⟨t :: ts, by simp [h1], ?_, ?_, ?_⟩
      · rw [h2]; simp
      · rw [h3]; simp [add_assoc]
      · intro k l' t' hk ht
        cases k with
        | zero =>
          simp only [List.getElem?_cons_zero, Option.some.injEq] at hk ht
          subst hk; subst ht
          simpa using hl
        | succ k =>
          simp only [List.getElem?_cons_succ] at hk ht
          have := h4 k l' t' hk ht
          rwa [show i + (k + 1) = i + 1 + k by omega]

/-- The time demanded for a level: bytes on the bus over throughput, in cycles. -/
def TimeOf (clSize : Nat) (clock : ℚ) (bw : Nat → ℚ → ℚ → Except Err ℚ) (i : Nat) (l : Level) (ld st t : ℚ) : Prop :=
  match l.rate with
  | .perCycle r => ∃ n, busy l.duplex ld st = some n ∧ t * r = n * clSize
  | .memory => ∃ n b, busy l.duplex ld st = some n ∧ bw i ld st = .ok b ∧ t * b = n * clSize * clock
  | .text => False

/-- C77: whenever the calculation returns, there is one time for each level after the first, in their order and under
their names, and each is the time demanded for the loads and stores of that level. Missing: see
`C77_memory_partial`. -/
theorem C77_all_levels_partial (el elSize : Nat) (clock : ℚ) (bw : Nat → ℚ → ℚ → Except Err ℚ) (loads stores : List ℚ)
    (h0 : Level) (hs : List Level) (r : List (String × ℚ) × ℚ) (he : 0 < elSize)
    (hd : ∀ l ∈ hs, l.rate = .memory → l.duplex = "half-duplex" ∨ l.duplex = "full-duplex")
    (hp : ∀ l ∈ hs, ∀ q, l.rate = .perCycle q → 0 ≤ q)
    (h : calculateCycles (el * elSize) elSize clock bw loads stores (h0 :: hs) = .ok r) :
    r.1.map Prod.fst = hs.map Level.name ∧
    ∀ (k : Nat) (l : Level) (x : String × ℚ), hs[k]? = some l → r.1[k]? = some x →
      ∃ ld st, loads[k + 1]? = some ld ∧ stores[k + 1]? = some st ∧
        TimeOf (el * elSize) clock bw (k + 1) l ld st x.2 := by
  unfold calculateCycles at h
  rw [if_neg he.ne'] at h
  obtain ⟨ts, h1, h2, h3, h4⟩ := timesFrom_spec _ _ _ _ _ _ _ _ _ _ _ h
  simp only [List.tail_cons, List.nil_append] at h1 h2 h4
  constructor
  · rw [h2, List.map_map]
    rw [show (Prod.fst ∘ fun x : Level × ℚ × ℚ => (x.1.name, x.2.1)) = Level.name ∘ Prod.fst from rfl,
      ← List.map_map, List.map_fst_zip (by omega)]
  · intro k l x hk hx
    have hkl : k < ts.length := by
      rw [h1]; exact (List.getElem?_eq_some_iff.1 hk).1
    obtain ⟨t, ht⟩ : ∃ t, ts[k]? = some t := ⟨ts[k], List.getElem?_eq_getElem hkl⟩
    have hlt := h4 k l t hk ht
    rw [h2, List.getElem?_map, List.getElem?_zip_eq_some (z := (l, t)) |>.2 ⟨hk, ht⟩] at hx
    simp only [Option.map_some, Option.some.injEq] at hx
    subst hx
    rw [Nat.add_comm 1 k] at hlt
    unfold levelTime at hlt
    split at hlt
    · rename_i ld st hld hst
      refine ⟨ld, st, hld, hst, ?_⟩
      unfold TimeOf
      cases hr : l.rate with
      | memory =>
        simp only [hr] at hlt ⊢
        cases hb : bw (k + 1) ld st with
        | error e => rw [hb] at hlt; cases hlt
        | ok b =>
          rw [hb] at hlt
          change (memTime (el * elSize) elSize clock b ld st l.duplex >>= _) = _ at hlt
          cases hm : memTime (el * elSize) elSize clock b ld st l.duplex with
          | error e => rw [hm] at hlt; cases hlt
          | ok c =>
            rw [hm] at hlt
            have hc : c = t.1 := by cases hlt; rfl
            have hb0 : b ≠ 0 := by
              intro hb0; simp [memTime, hb0] at hm
            have hmul : el * elSize / elSize = el := Nat.mul_div_cancel _ he
            rcases hd l (List.mem_of_getElem? hk) hr with hdx | hdx
            · refine ⟨ld + st, b, by simp [busy, hdx], rfl, ?_⟩
              simp only [memTime, hb0, if_false, hdx, if_true, hmul, Except.ok.injEq] at hm
              rw [← hc, ← hm]; push_cast; field_simp
            · refine ⟨if ld ≤ st then st else ld, b, by simp [busy, hdx], rfl, ?_⟩
              simp only [memTime, hb0, if_false, hdx, hmul] at hm
              rw [if_neg (by decide)] at hm
              simp only [Except.ok.injEq] at hm
              rw [← hc, ← hm, max_def]; push_cast; field_simp
      | perCycle q =>
        simp only [hr] at hlt ⊢
        cases hm : cacheTime ((el * elSize : Nat) : ℚ) q ld st l.duplex with
        | error e => rw [hm] at hlt; cases hlt
        | ok c =>
          rw [hm] at hlt
          have hc : c = t.1 := by cases hlt; rfl
          unfold cacheTime at hm
          split at hm
          · cases hm
          · rename_i hcl
            simp only at hm
            split at hm
            · rename_i hdx
              split at hm
              · cases hm
              · rename_i hq
                simp only [Except.ok.injEq] at hm
                have hq0 : q ≠ 0 := by rintro rfl; simp at hq
                refine ⟨ld + st, by simp [busy, hdx], ?_⟩
                rw [← hc, ← hm]; field_simp
            · rename_i hdx
              split at hm
              · rename_i hdf
                split at hm
                · cases hm
                · rename_i hq
                  simp only [Except.ok.injEq] at hm
                  have hq0 : q ≠ 0 := by rintro rfl; simp at hq
                  have hqn := hp l (List.mem_of_getElem? hk) q hr
                  refine ⟨if ld ≤ st then st else ld, by simp [busy, hdf], ?_⟩
                  have hpos : (0 : ℚ) ≤ q / ((el * elSize : Nat) : ℚ) := by positivity
                  rw [max_div_div_right hpos, max_def] at hm
                  rw [← hc, ← hm]; field_simp
              · cases hm
      | text => rw [hr] at hlt; cases hlt
    · cases hlt

/-- An example hierarchy: L1, L2 (half-duplex, 64 B/cy) and memory. -/
def exampleLevels : List Level :=
  [⟨"L1", .perCycle 0, "", none, none⟩, ⟨"L2", .perCycle 64, "half-duplex", none, none⟩,
    ⟨"MEM", .memory, "full-duplex", some 2, none⟩]

/-- The example meets the hypotheses and is computed. -/
example : calculateCycles (8 * 8) 8 (3 * 10 ^ 9) (fun _ _ _ => .ok (6 * 10 ^ 9)) [5, 4, 3] [1, 1, 1] exampleLevels =
      .ok ([("L2", 5), ("MEM", 96)], 6) ∧
    (∀ l ∈ exampleLevels.tail, l.rate = .memory → l.duplex = "half-duplex" ∨ l.duplex = "full-duplex") ∧
    (∀ l ∈ exampleLevels.tail, ∀ q, l.rate = .perCycle q → 0 ≤ q) := by
  refine ⟨by decide +kernel, by decide, ?_⟩
  intro l hl q hq
  simp only [exampleLevels, List.tail_cons, List.mem_cons, List.not_mem_nil, or_false] at hl
  rcases hl with rfl | rfl
  · simp only [Rate.perCycle.injEq] at hq; subst hq; norm_num
  · simp at hq

/-- C77: the penalty is the sum of the penalties of the memory levels: loads times cycles per load plus stores times
cycles per store. -/
theorem C77_penalty (clSize elSize : Nat) (clock : ℚ) (bw : Nat → ℚ → ℚ → Except Err ℚ) (loads stores : List ℚ)
    (h0 : Level) (hs : List Level) (r : List (String × ℚ) × ℚ)
    (h : calculateCycles clSize elSize clock bw loads stores (h0 :: hs) = .ok r) :
    ∃ ps : List ℚ, ps.length = hs.length ∧ r.2 = ps.sum ∧
      ∀ (k : Nat) (l : Level) (p : ℚ), hs[k]? = some l → ps[k]? = some p →
        ∃ ld st, loads[k + 1]? = some ld ∧ stores[k + 1]? = some st ∧
          p = if l.rate = .memory then ld * l.loadPenalty.getD 0 + st * l.storePenalty.getD 0 else 0 := by
  unfold calculateCycles at h
  split at h
  · cases h
  obtain ⟨ts, h1, h2, h3, h4⟩ := timesFrom_spec _ _ _ _ _ _ _ _ _ _ _ h
  simp only [List.tail_cons, zero_add] at h1 h3 h4
  refine ⟨ts.map Prod.snd, by simpa using h1, h3, ?_⟩
  intro k l p hk hp
  rw [List.getElem?_map, Option.map_eq_some_iff] at hp
  obtain ⟨t, ht, rfl⟩ := hp
  have hlt := h4 k l t hk ht
  rw [Nat.add_comm 1 k] at hlt
  unfold levelTime at hlt
  split at hlt
  · rename_i ld st hld hst
    refine ⟨ld, st, hld, hst, ?_⟩
    cases hr : l.rate with
    | memory =>
      simp only [hr] at hlt
      cases hb : bw (k + 1) ld st with
      | error e => rw [hb] at hlt; cases hlt
      | ok b =>
        rw [hb] at hlt
        change (memTime clSize elSize clock b ld st l.duplex >>= _) = _ at hlt
        cases hm : memTime clSize elSize clock b ld st l.duplex with
        | error e => rw [hm] at hlt; cases hlt
        | ok c =>
          rw [hm] at hlt
          have : levelPenalty l ld st = t.2 := by cases hlt; rfl
          rw [if_pos rfl, ← this]
          unfold levelPenalty
          cases l.loadPenalty <;> cases l.storePenalty <;> simp
    | perCycle q =>
      simp only [hr] at hlt
      rw [if_neg (by simp)]
      cases hm : cacheTime clSize q ld st l.duplex with
      | error e => rw [hm] at hlt; cases hlt
      | ok c => rw [hm] at hlt; cases hlt; rfl
    | text => rw [hr] at hlt; cases hlt
  · cases hlt

/-! ## C78 -/

/-- Specification: iterations of the inner loop (increment `incr`) whose elements fill one cacheline. -/
def iterationsPerCl (clSize elSize incr : Nat) : ℚ := (clSize : ℚ) / (elSize * incr)

/-- Specification: bytes moved per iteration and bandwidth, for every level. CPU-L1 moves the distinct elements that `n`
iterations read and those that they write; the loads and stores of other levels are cachelines per cacheline of
iterations. -/
def demands (clSize elSize incr n reads writes : Nat) (bwL1 : ℚ) (levels : List (ℚ × ℚ × ℚ)) : List (ℚ × ℚ) :=
  (((reads + writes) * elSize : Nat) / n, bwL1) ::
    levels.map fun l => ((l.1 + l.2.1) * clSize / iterationsPerCl clSize elSize incr, l.2.2)

/-- Specification: at `p` iterations per second a level moves no more bytes per second than its bandwidth. -/
def Sustains (p : WithTop ℚ) (d : ℚ × ℚ) : Prop :=
  match p with
  | ⊤ => d.1 = 0
  | (q : ℚ) => q * d.1 ≤ d.2

/-- Specification: `p` uses the whole bandwidth; infinite performance only if nothing is moved. -/
def Saturates (p : WithTop ℚ) (d : ℚ × ℚ) : Prop :=
  match p with
  | ⊤ => d.1 = 0
  | (q : ℚ) => q * d.1 = d.2

theorem l1Perf_saturates (el elSize reads writes : Nat) (bw q : ℚ) (he : 0 < el)
    (h : l1Perf el elSize reads writes bw = some q) :
    Saturates (q : WithTop ℚ) (((reads + writes) * elSize : Nat) / (el : ℚ), bw) := by
  unfold l1Perf at h
  simp only at h
  split at h
  · cases h
  · rename_i h0
    simp only [Option.some.injEq] at h
    have he' : (el : ℚ) ≠ 0 := by exact_mod_cast he.ne'
    unfold Saturates
    push_cast
    rw [← h]
    generalize ((reads : ℚ) + writes) * elSize = b at h0
    field_simp

theorem levelPerf_saturates (el elSize : Nat) (l s bw : ℚ) (he : 0 < el) (hs : 0 < elSize) :
    Saturates (levelPerf (el * elSize) el l s bw)
      ((l + s) * (el * elSize : Nat) / iterationsPerCl (el * elSize) elSize 1, bw) := by
  have he' : (el : ℚ) ≠ 0 := by exact_mod_cast he.ne'
  have hs' : (elSize : ℚ) ≠ 0 := by exact_mod_cast hs.ne'
  have hit : iterationsPerCl (el * elSize) elSize 1 = el := by
    unfold iterationsPerCl; push_cast; field_simp
  rw [hit]
  unfold levelPerf
  simp only
  split
  · rename_i h0
    unfold Saturates
    simp only
    rw [show (l + s) * ((el * elSize : Nat) : ℚ) = l * ((el * elSize : Nat) : ℚ) + s * ((el * elSize : Nat) : ℚ) by ring,
      h0, zero_div]
  · rename_i h0
    unfold Saturates
    simp only
    have h0' : (l + s) * ((el * elSize : Nat) : ℚ) ≠ 0 := by intro h; apply h0; linarith
    rw [show l * ((el * elSize : Nat) : ℚ) + s * ((el * elSize : Nat) : ℚ) = (l + s) * ((el * elSize : Nat) : ℚ) by ring]
    generalize (l + s) * ((el * elSize : Nat) : ℚ) = b at h0'
    field_simp

theorem sustains_of_le (p q : WithTop ℚ) (d : ℚ × ℚ) (hd : 0 ≤ d.1) (hpq : p ≤ q) (h : Saturates q d) (hb : 0 ≤ d.2) :
    Sustains p d := by
  unfold Sustains
  cases p with
  | top =>
    have : q = ⊤ := top_le_iff.1 hpq
    subst this
    exact h
  | coe a =>
    simp only
    cases q with
    | top =>
      have h' : d.1 = 0 := h
      rw [h', mul_zero]; exact hb
    | coe b =>
      have h' : b * d.1 = d.2 := h
      have hab : a ≤ b := WithTop.coe_le_coe.1 hpq
      rw [← h']
      exact mul_le_mul_of_nonneg_right hab hd

/-- C78: every reported level performance is the one at which the bytes moved per iteration use the whole bandwidth, and
the reported minimum is sustained by all levels and saturates the bottleneck. Missing: increments other than one
(`C78_negation`). -/
theorem C78_limits_partial (el elSize reads writes : Nat) (bwL1 : ℚ) (levels : List (ℚ × ℚ × ℚ))
    (he : 0 < el) (hs : 0 < elSize) (hb : 0 ≤ bwL1) (hl : ∀ l ∈ levels, 0 ≤ l.1 ∧ 0 ≤ l.2.1 ∧ 0 ≤ l.2.2)
    (ps : List (WithTop ℚ)) (i : Nat) (p : WithTop ℚ)
    (h : cacheAccess (el * elSize) elSize reads writes bwL1 levels = .ok (ps, i, p)) :
    List.Forall₂ Saturates ps (demands (el * elSize) elSize 1 el reads writes bwL1 levels) ∧
    (∀ d ∈ demands (el * elSize) elSize 1 el reads writes bwL1 levels, Sustains p d) ∧
    ∃ d, (demands (el * elSize) elSize 1 el reads writes bwL1 levels)[i]? = some d ∧ Saturates p d := by
  have hmul : el * elSize / elSize = el := Nat.mul_div_cancel _ hs
  unfold cacheAccess at h
  simp only [hmul] at h
  rw [if_neg hs.ne', if_neg he.ne'] at h
  cases h1 : l1Perf el elSize reads writes bwL1 with
  | none => rw [h1] at h; cases h
  | some q =>
    rw [h1] at h
    simp only [Except.ok.injEq, Prod.mk.injEq] at h
    obtain ⟨rfl, h⟩ := h
    have hsat : List.Forall₂ Saturates ((q : WithTop ℚ) :: levels.map fun l => levelPerf (el * elSize) el l.1 l.2.1 l.2.2)
        (demands (el * elSize) elSize 1 el reads writes bwL1 levels) := by
      unfold demands
      refine List.Forall₂.cons (l1Perf_saturates _ _ _ _ _ _ he h1) ?_
      rw [List.forall₂_map_left_iff, List.forall₂_map_right_iff, List.forall₂_same]
      intro l _
      exact levelPerf_saturates el elSize _ _ _ he hs
    have hfold := roofFold (q : WithTop ℚ) (levels.map fun l => levelPerf (el * elSize) el l.1 l.2.1 l.2.2)
    simp only at hfold
    rw [h] at hfold
    obtain ⟨_, _, hi, hmin⟩ := hfold
    refine ⟨hsat, ?_, ?_⟩
    · intro d hd
      obtain ⟨k, hk⟩ := List.getElem?_of_mem hd
      have hklt : k < ((q : WithTop ℚ) :: levels.map fun l => levelPerf (el * elSize) el l.1 l.2.1 l.2.2).length := by
        rw [hsat.length_eq]; exact (List.getElem?_eq_some_iff.1 hk).1
      have hpk := List.getElem?_eq_getElem hklt
      have hsk : Saturates _ d := List.Forall₂.get hsat hklt (by rw [← hsat.length_eq]; exact hklt) |> fun x => by
        have := (List.getElem?_eq_some_iff.1 hk).2
        simpa [this] using x
      refine sustains_of_le p _ d ?_ (hmin k _ hpk).1 hsk ?_
      · unfold demands at hd
        simp only [List.mem_cons, List.mem_map] at hd
        rcases hd with rfl | ⟨l, hm, rfl⟩
        · positivity
        · obtain ⟨a, b, c⟩ := hl l hm
          have : 0 ≤ iterationsPerCl (el * elSize) elSize 1 := by unfold iterationsPerCl; positivity
          simp only
          positivity
      · unfold demands at hd
        simp only [List.mem_cons, List.mem_map] at hd
        rcases hd with rfl | ⟨l, hm, rfl⟩
        · exact hb
        · exact (hl l hm).2.2
    · have hilt := (List.getElem?_eq_some_iff.1 hi).1
      have hilt' := hilt
      rw [hsat.length_eq] at hilt'
      refine ⟨_, List.getElem?_eq_getElem hilt', ?_⟩
      have := List.Forall₂.get hsat hilt hilt'
      have hp := (List.getElem?_eq_some_iff.1 hi).2
      simpa [hp] using this

/-- The example: 8 elements per cacheline, 16 elements read and 8 written, L2 and memory. -/
example : ∃ ps, cacheAccess (8 * 8) 8 16 8 96 [(3, 1, 64), (2, 1, 12)] = .ok (ps, 2, ((1 / 2 : ℚ) : WithTop ℚ)) ∧
    ps = [((4 : ℚ) : WithTop ℚ), ((2 : ℚ) : WithTop ℚ), ((1 / 2 : ℚ) : WithTop ℚ)] := by
  exact ⟨_, by decide +kernel, rfl⟩

/-- C78 is false for an inner loop with increment 2: 4 iterations fill a cacheline, but 8 are assumed, and the reported
performance would need twice the bandwidth of memory. -/
theorem C78_negation : ∃ ps i p, cacheAccess 64 8 8 0 1000 [(1, 0, 64)] = .ok (ps, i, p) ∧
    ∃ d ∈ demands 64 8 2 8 8 0 1000 [(1, 0, 64)], ¬ Sustains p d := by
  refine ⟨[((125 : ℚ) : WithTop ℚ), ((8 : ℚ) : WithTop ℚ)], 1, ((8 : ℚ) : WithTop ℚ), by decide +kernel, (16, 64), ?_, ?_⟩
  · norm_num [demands, iterationsPerCl]
  · norm_num [Sustains]

theorem levelPerf_iff (el elSize incr : Nat) (l s bw : ℚ) (he : 0 < el) (hs : 0 < elSize) (hls : l + s ≠ 0) (hbw : bw ≠ 0) :
    Saturates (levelPerf (el * elSize) el l s bw)
      ((l + s) * (el * elSize : Nat) / iterationsPerCl (el * elSize) elSize incr, bw) ↔ incr = 1 := by
  constructor
  · intro h
    have h1 := levelPerf_saturates el elSize l s bw he hs
    have he' : (el : ℚ) ≠ 0 := by exact_mod_cast he.ne'
    have hs' : (elSize : ℚ) ≠ 0 := by exact_mod_cast hs.ne'
    have hn : (((el * elSize : Nat)) : ℚ) ≠ 0 := by push_cast; exact mul_ne_zero he' hs'
    have hi : ∀ k : Nat, (l + s) * (el * elSize : Nat) / iterationsPerCl (el * elSize) elSize k = (l + s) * elSize * k := by
      intro k
      unfold iterationsPerCl
      rw [div_div_eq_mul_div, mul_div_assoc, mul_div_assoc, mul_assoc]
      field_simp
    rw [hi] at h h1
    cases hp : levelPerf (el * elSize) el l s bw with
    | top =>
      rw [hp] at h1
      have : (l + s) * elSize * (1 : Nat) = 0 := h1
      simp [hls, hs'] at this
    | coe q =>
      rw [hp] at h h1
      have a : q * ((l + s) * elSize * (incr : ℚ)) = bw := h
      have b : q * ((l + s) * elSize * ((1 : Nat) : ℚ)) = bw := h1
      have hq : q ≠ 0 := by rintro rfl; rw [zero_mul] at b; exact hbw b.symm
      have : (incr : ℚ) = ((1 : Nat) : ℚ) :=
        mul_left_cancel₀ (mul_ne_zero hls hs') (mul_left_cancel₀ hq (a.trans b.symm))
      exact_mod_cast this
  · rintro rfl
    exact levelPerf_saturates el elSize l s bw he hs

/-- C78: the exact condition. If data moves beyond L1, the level performances use the bandwidths if and only if the increment of the
inner loop is one. -/
theorem C78_limits_iff (el elSize incr reads writes : Nat) (bwL1 : ℚ) (levels : List (ℚ × ℚ × ℚ)) (he : 0 < el) (hs : 0 < elSize)
    (hm : ∃ l ∈ levels, l.1 + l.2.1 ≠ 0 ∧ l.2.2 ≠ 0) (ps : List (WithTop ℚ)) (i : Nat) (p : WithTop ℚ)
    (h : cacheAccess (el * elSize) elSize reads writes bwL1 levels = .ok (ps, i, p)) :
    List.Forall₂ Saturates ps (demands (el * elSize) elSize incr el reads writes bwL1 levels) ↔ incr = 1 := by
  have hmul : el * elSize / elSize = el := Nat.mul_div_cancel _ hs
  unfold cacheAccess at h
  simp only [hmul] at h
  rw [if_neg hs.ne', if_neg he.ne'] at h
  cases h1 : l1Perf el elSize reads writes bwL1 with
  | none => rw [h1] at h; cases h
  | some q =>
    rw [h1] at h
    simp only [Except.ok.injEq, Prod.mk.injEq] at h
    obtain ⟨rfl, -⟩ := h
    unfold demands
    rw [List.forall₂_cons, List.forall₂_map_left_iff, List.forall₂_map_right_iff, List.forall₂_same]
    constructor
    · rintro ⟨-, h⟩
      obtain ⟨l, hl, ha, hb⟩ := hm
      exact (levelPerf_iff el elSize incr l.1 l.2.1 l.2.2 he hs ha hb).1 (h l hl)
    · rintro rfl
      exact ⟨l1Perf_saturates _ _ _ _ _ _ he h1, fun l _ => levelPerf_saturates el elSize _ _ _ he hs⟩

example : ¬ List.Forall₂ Saturates [((4 : ℚ) : WithTop ℚ), ((2 : ℚ) : WithTop ℚ), ((1 / 2 : ℚ) : WithTop ℚ)]
    (demands (8 * 8) 8 2 8 16 8 96 [(3, 1, 64), (2, 1, 12)]) := fun h =>
  absurd ((C78_limits_iff 8 8 2 16 8 96 [(3, 1, 64), (2, 1, 12)] (by decide) (by decide)
    ⟨(3, 1, 64), by simp, by norm_num, by norm_num⟩ _ 2 ((1 / 2 : ℚ) : WithTop ℚ) (by decide +kernel)).1 h) (by decide)

/-- C78: a kernel that moves nothing to or from L1 is rejected. -/
theorem C78_nothing_moved_rejected (el elSize : Nat) (bwL1 : ℚ) (levels : List (ℚ × ℚ × ℚ)) (he : 0 < el)
    (hs : 0 < elSize) : cacheAccess (el * elSize) elSize 0 0 bwL1 levels = .error .type := by
  have hmul : el * elSize / elSize = el := Nat.mul_div_cancel _ hs
  unfold cacheAccess
  simp only [hmul]
  rw [if_neg hs.ne', if_neg he.ne']
  simp [l1Perf]

/-! ## C79 -/

/-- C79: for increment one all units of a Roofline result describe the same performance. Missing: other increments
(`C79_negation_increment`). -/
theorem C79_units_partial (clock : ℚ) (clSize elSize flops : Nat) (itS : WithTop ℚ) (hc : 0 < clock) (hs : 0 < elSize)
    (hcl : 0 < clSize) (h0 : itS ≠ 0) :
    ∃ c, convPerf clock clSize elSize flops itS = some c ∧ Consistent clock (itPerCl clSize elSize 1) flops c ∧
      (∀ q : ℚ, itS = q → c.itS = .fin q) ∧ (itS = ⊤ → c.itS = .inf) := by
  have hs' : (elSize : ℚ) ≠ 0 := by exact_mod_cast hs.ne'
  have hcl' : (clSize : ℚ) ≠ 0 := by exact_mod_cast hcl.ne'
  cases itS with
  | top =>
    refine ⟨⟨.inf, 0 * ((clSize : ℚ) / elSize), 0, Val.inf.scale flops⟩, by simp [convPerf, hs.ne'], ?_, by simp, by simp⟩
    refine ⟨by simp, by simp, by simp⟩
  | coe q =>
    have hq : q ≠ 0 := by rintro rfl; simp at h0
    refine ⟨⟨.fin q, clock / q * ((clSize : ℚ) / elSize), clock / q, (Val.fin q).scale flops⟩, by
      simp [convPerf, hs.ne', hq], ?_, by intro q' h; simp only [WithTop.coe_inj] at h; simp [h], by simp⟩
    refine ⟨by simp [itPerCl], ?_, ?_⟩
    · intro q' h
      simp only [Val.fin.injEq] at h
      subst h
      exact ⟨by field_simp, rfl⟩
    · simp only [reduceCtorEq, false_iff]
      positivity

example : convPerf (3 * 10 ^ 9) 64 8 2 (((6 * 10 ^ 8 : ℚ)) : WithTop ℚ) = some ⟨.fin (6 * 10 ^ 8), 40, 5, .fin (12 * 10 ^ 8)⟩ := by
  decide +kernel

/-- C79 is false for an increment of 2: cycles per cacheline are computed for twice the iterations. -/
theorem C79_negation_increment : ∃ c, convPerf 1 64 8 2 ((1 : ℚ) : WithTop ℚ) = some c ∧
    ¬ Consistent 1 (itPerCl 64 8 2) 2 c := by
  refine ⟨⟨.fin 1, 8, 1, .fin 2⟩, by decide +kernel, ?_⟩
  rintro ⟨h, _⟩
  norm_num [itPerCl] at h

/-- C79, exactly: a finite performance is reported consistently if and only if the increment is one. -/
theorem C79_units_iff (clock q : ℚ) (clSize elSize flops increment : Nat) (hc : 0 < clock) (hs : 0 < elSize) (hcl : 0 < clSize)
    (hi : 0 < increment) (hq : q ≠ 0) :
    (∃ c, convPerf clock clSize elSize flops (q : WithTop ℚ) = some c ∧ Consistent clock (itPerCl clSize elSize increment) flops c) ↔
      increment = 1 := by
  have hs' : (0 : ℚ) < elSize := by exact_mod_cast hs
  have hcl' : (0 : ℚ) < clSize := by exact_mod_cast hcl
  have hi' : (0 : ℚ) < increment := by exact_mod_cast hi
  constructor
  · rintro ⟨c, h1, h2⟩
    simp only [convPerf, hs.ne', hq, if_false, Option.some.injEq] at h1
    subst h1
    have h3 := h2.1
    simp only [itPerCl] at h3
    field_simp at h3
    have h4 : (increment : ℚ) = 1 := by linarith
    exact_mod_cast h4
  · rintro rfl
    obtain ⟨c, h1, h2, -⟩ := C79_units_partial clock clSize elSize flops q hc hs hcl (by
      intro h
      exact hq (WithTop.coe_eq_zero.1 h))
    exact ⟨c, h1, h2⟩

example : ¬ ∃ c, convPerf 2 64 8 3 ((5 : ℚ) : WithTop ℚ) = some c ∧ Consistent 2 (itPerCl 64 8 2) 3 c := by
  rw [C79_units_iff 2 5 64 8 3 2 (by norm_num) (by decide) (by decide) (by decide) (by norm_num)]
  decide

/-- C79: no performance (bandwidth zero) is rejected. -/
theorem C79_zero_rejected (clock : ℚ) (clSize elSize flops : Nat) :
    convPerf clock clSize elSize flops ((0 : ℚ) : WithTop ℚ) = none := by
  simp [convPerf]

/-! ## C80 -/

/-- Specification: the peak performance of the machine in FLOP/s. -/
def peakFlops (clock : ℚ) (cores : Nat) (flopsPerCycle : ℚ) : ℚ := flopsPerCycle * clock * cores

/-- C80 is false: the reported peak is too large by the flops per iteration, and a kernel whose memory bound of 12 FLOP/s
exceeds the peak of 10 FLOP/s is not reported as CPU bound. -/
theorem C80_negation : ∃ c m, convPerf 1 64 8 2 ((6 : ℚ) : WithTop ℚ) = some c ∧ maxPerf 1 64 8 2 1 10 = some m ∧
    peakFlops 1 1 10 = 10 ∧ m.flopS = .fin 20 ∧ c.flopS = .fin 12 ∧ cpuBound c m = false := by
  refine ⟨⟨.fin 6, 4 / 3, 1 / 6, .fin 12⟩, ⟨.fin 10, 4 / 5, 1 / 10, .fin 20⟩, by decide +kernel, by decide +kernel, ?_⟩
  norm_num [peakFlops, cpuBound, valGt]

/-- C80: what is reported as peak performance. -/
theorem C80_reported_peak_partial (clock fpc : ℚ) (clSize elSize flops cores : Nat) (hs : 0 < elSize)
    (hp : peakFlops clock cores fpc ≠ 0) :
    ∃ m, maxPerf clock clSize elSize flops cores fpc = some m ∧ m.flopS = .fin (flops * peakFlops clock cores fpc) := by
  have hp' : clock * cores * fpc ≠ 0 := by
    intro h; apply hp; unfold peakFlops; rw [← h]; ring
  refine ⟨⟨.fin (clock * cores * fpc), clock / (clock * cores * fpc) * ((clSize : ℚ) / elSize),
    clock / (clock * cores * fpc), (Val.fin (clock * cores * fpc)).scale flops⟩, ?_, ?_⟩
  · unfold maxPerf convPerf
    rw [if_neg hs.ne']
    simp only [hp', if_false]
  · simp only [Val.scale, peakFlops, Val.fin.injEq]
    ring

/-- C80 for kernels with one flop per iteration: reported as CPU bound exactly if the limit of the memory hierarchy is
above the peak performance. Missing: other numbers of flops (`C80_negation`). -/
theorem C80_verdict_partial (clock fpc q : ℚ) (clSize elSize cores : Nat) (c m : Conv)
    (hc : convPerf clock clSize elSize 1 (q : WithTop ℚ) = some c) (hm : maxPerf clock clSize elSize 1 cores fpc = some m) :
    cpuBound c m = true ↔ peakFlops clock cores fpc < q * 1 := by
  unfold maxPerf convPerf at hm
  unfold convPerf at hc
  split at hc
  · cases hc
  · rename_i hs
    rw [if_neg hs] at hm
    simp only at hc hm
    split at hc
    · cases hc
    · split at hm
      · cases hm
      · simp only [Option.some.injEq] at hc hm
        subst hc; subst hm
        simp only [cpuBound, valGt, Val.scale, Nat.cast_one, mul_one, decide_eq_true_eq, peakFlops]
        rw [show clock * (cores : ℚ) * fpc = fpc * clock * cores by ring]

/-- C80, exactly: the verdict is wrong if and only if the peak performance lies between the iterations per second that the memory
hierarchy allows and their floating-point operations; kernels reported as CPU bound are always bound by the peak. -/
theorem C80_wrong_iff (clock fpc q : ℚ) (clSize elSize flops cores : Nat) (c m : Conv) (hf : 0 < flops) (hq : 0 < q)
    (hc : convPerf clock clSize elSize flops (q : WithTop ℚ) = some c) (hm : maxPerf clock clSize elSize flops cores fpc = some m) :
    (¬ (cpuBound c m = true ↔ peakFlops clock cores fpc < q * flops)) ↔
      q ≤ peakFlops clock cores fpc ∧ peakFlops clock cores fpc < q * flops := by
  have hf' : (0 : ℚ) < flops := by exact_mod_cast hf
  have hf1 : (1 : ℚ) ≤ flops := by exact_mod_cast hf
  have hle : q ≤ q * flops := le_mul_of_one_le_right hq.le hf1
  have key : cpuBound c m = true ↔ peakFlops clock cores fpc < q := by
    unfold maxPerf convPerf at hm
    unfold convPerf at hc
    split at hc
    · cases hc
    · rename_i hs
      rw [if_neg hs] at hm
      simp only at hc hm
      split at hc
      · cases hc
      · split at hm
        · cases hm
        · simp only [Option.some.injEq] at hc hm
          subst hc; subst hm
          simp only [cpuBound, valGt, Val.scale, decide_eq_true_eq, peakFlops]
          rw [show clock * (cores : ℚ) * fpc = fpc * clock * cores by ring]
          exact mul_lt_mul_iff_left₀ hf'
  rw [key]
  constructor
  · intro h
    by_contra hn
    refine h ⟨fun h1 => lt_of_lt_of_le h1 hle, fun h1 => ?_⟩
    by_contra h2
    exact hn ⟨not_lt.1 h2, h1⟩
  · rintro ⟨h1, h2⟩ h
    exact absurd (h.2 h2) (not_lt.2 h1)

example : ∃ c m, convPerf 1 64 8 2 ((6 : ℚ) : WithTop ℚ) = some c ∧ maxPerf 1 64 8 2 1 10 = some m ∧
    ¬ (cpuBound c m = true ↔ peakFlops 1 1 10 < 6 * (2 : Nat)) := by
  refine ⟨⟨.fin 6, 4 / 3, 1 / 6, .fin 12⟩, ⟨.fin 10, 4 / 5, 1 / 10, .fin 20⟩, by decide +kernel, by decide +kernel, ?_⟩
  exact (C80_wrong_iff 1 10 6 64 8 2 1 _ _ (by decide) (by norm_num) (by decide +kernel) (by decide +kernel)).2 (by norm_num [peakFlops])

/-- C80: kernels limited by nothing in the memory hierarchy, with at least one flop, are CPU bound. -/
theorem C80_unlimited (clock fpc : ℚ) (clSize elSize flops cores : Nat) (c m : Conv) (hf : 0 < flops)
    (hc : convPerf clock clSize elSize flops ⊤ = some c) (hm : maxPerf clock clSize elSize flops cores fpc = some m) :
    cpuBound c m = true := by
  unfold maxPerf convPerf at hm
  unfold convPerf at hc
  split at hc
  · cases hc
  · rename_i hs
    rw [if_neg hs] at hm
    simp only at hc hm
    split at hm
    · cases hm
    · simp only [Option.some.injEq] at hc hm
      subst hc; subst hm
      have : (flops : ℚ) ≠ 0 := by exact_mod_cast hf.ne'
      simp [cpuBound, valGt, Val.scale, this]

example : ∃ c m, convPerf 2 64 8 3 ⊤ = some c ∧ maxPerf 2 64 8 3 4 8 = some m :=
  ⟨⟨.inf, 0, 0, .inf⟩, ⟨.fin 64, 1 / 4, 1 / 32, .fin 192⟩, by decide +kernel, by decide +kernel⟩
example : ∃ c m, convPerf 2 64 8 1 ((65 : ℚ) : WithTop ℚ) = some c ∧ maxPerf 2 64 8 1 4 8 = some m ∧
    cpuBound c m = true :=
  ⟨⟨.fin 65, 16 / 65, 2 / 65, .fin 65⟩, ⟨.fin 64, 1 / 4, 1 / 32, .fin 64⟩, by decide +kernel, by decide +kernel,
    by decide +kernel⟩

/-- C80, in-core variant: the CPU limit is reached when every core executes a block of `b` bytes in the predicted number
of cycles: iterations per second times cycles per block equal clock times cores times elements per block. -/
theorem C80_asm_limit (clock throughput : ℚ) (inc : Int) (elSize cores : Nat) (hs : 0 < elSize) (hi : inc ≠ 0)
    (ht : throughput ≠ 0) :
    ∃ p, asmPerf clock throughput inc elSize cores = some p ∧
      p * throughput * elSize = clock * cores * inc.natAbs := by
  have hs' : (0 : ℚ) < elSize := by exact_mod_cast hs
  have hi' : (inc : ℚ) ≠ 0 := by exact_mod_cast hi
  have habs : |(inc : ℚ) / elSize| = (inc.natAbs : ℚ) / elSize := by
    rw [abs_div, abs_of_pos hs', Nat.cast_natAbs, Int.cast_abs]
  have hn : (inc.natAbs : ℚ) ≠ 0 := by
    rw [Nat.cast_natAbs, Int.cast_abs]; exact abs_ne_zero.2 hi'
  refine ⟨clock / throughput * |(inc : ℚ) / elSize| * cores, ?_, ?_⟩
  · unfold asmPerf
    rw [if_neg hs.ne']
    simp only
    rw [if_neg, if_neg ht]
    rw [habs]
    positivity
  · rw [habs]; field_simp

/-- C80: a pointer increment of zero is rejected. -/
theorem C80_asm_rejected (clock throughput : ℚ) (elSize cores : Nat) : asmPerf clock throughput 0 elSize cores = none := by
  unfold asmPerf
  simp

end Verif.Transfer
