import Verif.Lemmas.Predict

/-!
Property C138: larger caches never lead to a worse prediction, neither of the ECM nor of the Roofline model.

The claim fails: the number of misses of the last cache falls, but `get_bandwidth` then compares the traffic to another
benchmark, whose bandwidth may be lower by more than what is saved.
-/

namespace Verif.Predict

open Verif.LayerCond Verif.Perf

variable {K : Type} [LinearOrder K]

/-! ## C138 -/

/-- C138, ECM, part: larger caches do not lead to more cycles as long as the bandwidths of the levels that are fed from
memory do not fall with the traffic. -/
theorem C138_ecm_partial (m : Mach) (hm : Sane m) (elSize : Nat) (tComp tReg : ℚ) (w : Work K) (caches caches' : List (Cache K))
    (hc : Larger w caches caches')
    (hb : ∀ i l, m.levels[i]? = some l → l.base.rate = .memory → Steady m none i)
    (t : ℚ) (h : ecm m elSize tComp tReg w caches = some t) :
    ∃ t', ecm m elSize tComp tReg w caches' = some t' ∧ t' ≤ t := by
  obtain ⟨os, hos, hf⟩ := traffic_selected w caches
  obtain ⟨os', hos', hf'⟩ := traffic_selected w caches'
  have hless := traffic_less w caches caches' hc os os' hf hf'
  exact ecm_mono m elSize tComp tReg w w caches caches' os os' hos hos' hless hm.clock
    (fun l hl => ⟨hm.rates l hl, hm.penalties l hl⟩)
    (fun i l hl hr hi => steady_ok m hm none os os' hless i hi (hb i l hl hr)) t h

/-- C138, ECM, part: without any condition on bandwidths if the caches next to memory keep their sizes. -/
theorem C138_ecm_inner_partial (m : Mach) (hm : Sane m) (elSize : Nat) (tComp tReg : ℚ) (w : Work K) (caches caches' : List (Cache K))
    (hc : Larger w caches caches')
    (hlast : ∀ k l c c', m.levels[k + 1]? = some l → l.base.rate = .memory → caches[k]? = some c → caches'[k]? = some c' →
      c'.size = c.size)
    (t : ℚ) (h : ecm m elSize tComp tReg w caches = some t) :
    ∃ t', ecm m elSize tComp tReg w caches' = some t' ∧ t' ≤ t := by
  obtain ⟨os, hos, hf⟩ := traffic_selected w caches
  obtain ⟨os', hos', hf'⟩ := traffic_selected w caches'
  have hless := traffic_less w caches caches' hc os os' hf hf'
  refine ecm_mono m elSize tComp tReg w w caches caches' os os' hos hos' hless hm.clock
    (fun l hl => ⟨hm.rates l hl, hm.penalties l hl⟩) (fun i l hl hr hi => ?_) t h
  intro ld st ld' st' b h1 h2 h3 h4 hbw
  obtain ⟨k, rfl⟩ := Nat.exists_eq_succ_of_ne_zero hi
  refine ⟨bandwidth_nonneg m none _ ld st b hm.kernels hm.measured hbw, b, ?_, le_refl _⟩
  obtain ⟨he1, he2⟩ := same_entries w caches caches' hc os os' hf hf' k
    (fun c c' => hlast k l c c' hl hr) ld st ld' st' h1 h2 h3 h4
  rw [he1, he2]
  exact hbw

/-- C138, ECM, part: without any condition on bandwidths or caches for kernels that write nothing. -/
theorem C138_ecm_reading_partial (m : Mach) (hm : Sane m) (elSize : Nat) (tComp tReg : ℚ) (w : Work K) (caches caches' : List (Cache K))
    (hc : Larger w caches caches') (hw : w.nDest = 0) (t : ℚ) (h : ecm m elSize tComp tReg w caches = some t) :
    ∃ t', ecm m elSize tComp tReg w caches' = some t' ∧ t' ≤ t := by
  obtain ⟨os, hos, hf⟩ := traffic_selected w caches
  obtain ⟨os', hos', hf'⟩ := traffic_selected w caches'
  have hless := traffic_less w caches caches' hc os os' hf hf'
  exact ecm_mono m elSize tComp tReg w w caches caches' os os' hos hos' hless hm.clock
    (fun l hl => ⟨hm.rates l hl, hm.penalties l hl⟩)
    (fun i _ _ _ _ => reading_ok m hm.kernels hm.measured none w hw caches caches' os os' hf hf' i) t h

/-- C138, Roofline, part: larger caches do not lead to a lower performance as long as the bandwidths do not fall with the
traffic. -/
theorem C138_roofline_partial (m : Mach) (hm : Sane m) (elSize cores reads writes : Nat) (w : Work K)
    (caches caches' : List (Cache K)) (hc : Larger w caches caches')
    (hb : ∀ i, i ≠ 0 → Steady m (some cores) i)
    (p : WithTop ℚ) (h : roofline m elSize cores reads writes w caches = some p) :
    ∃ p', roofline m elSize cores reads writes w caches' = some p' ∧ p ≤ p' := by
  obtain ⟨os, hos, hf⟩ := traffic_selected w caches
  obtain ⟨os', hos', hf'⟩ := traffic_selected w caches'
  have hless := traffic_less w caches caches' hc os os' hf hf'
  exact roofline_mono m elSize cores reads writes w w caches caches' os os' hos hos' hless
    (fun i _ hi => steady_ok m hm (some cores) os os' hless i hi (hb i hi)) p h

/-- C138, Roofline, part: without a condition on bandwidths for kernels that write nothing. -/
theorem C138_roofline_reading_partial (m : Mach) (hm : Sane m) (elSize cores reads writes : Nat) (w : Work K)
    (caches caches' : List (Cache K)) (hc : Larger w caches caches') (hw : w.nDest = 0)
    (p : WithTop ℚ) (h : roofline m elSize cores reads writes w caches = some p) :
    ∃ p', roofline m elSize cores reads writes w caches' = some p' ∧ p ≤ p' := by
  obtain ⟨os, hos, hf⟩ := traffic_selected w caches
  obtain ⟨os', hos', hf'⟩ := traffic_selected w caches'
  have hless := traffic_less w caches caches' hc os os' hf hf'
  exact roofline_mono m elSize cores reads writes w w caches caches' os os' hos hos' hless
    (fun i _ _ => reading_ok m hm.kernels hm.measured (some cores) w hw caches caches' os os' hf hf' i) p h

/-! ### Witnesses

The memory bandwidths of `examples/machine-files/HaswellEP_E5-2695v3.yml` in MB/s, of 13 and 14 cores, with its
hierarchy; the kernel writes four arrays and reads a fifth one in two rows of 6 MB. -/

def bench : List (String × Machine.Bench) :=
  [("copy", ⟨1, 1, 0, 8, 8, 0⟩), ("daxpy", ⟨2, 1, 1, 16, 8, 8⟩), ("load", ⟨1, 0, 0, 8, 0, 0⟩), ("triad", ⟨3, 1, 0, 24, 8, 0⟩),
   ("update", ⟨1, 1, 1, 8, 8, 8⟩)]

def mem : Machine.Meas :=
  ⟨1, [13, 14], [("copy", [35470, 35570]), ("daxpy", [52730, 52740]), ("load", [61670, 61820]), ("triad", [44210, 44190]),
    ("update", [46780, 46740])]⟩

/-- Bandwidths of the caches, large enough not to matter. -/
def fast : Machine.Meas :=
  ⟨1, [13, 14], [("copy", [900000, 900000]), ("daxpy", [900000, 900000]), ("load", [900000, 900000]), ("triad", [900000, 900000]),
    ("update", [900000, 900000])]⟩

def haswell : Mach :=
  ⟨64, 2300, [⟨⟨"L1", .text, "", none, none⟩, false, 1, some fast⟩, ⟨⟨"L2", .perCycle 64, "half-duplex", none, none⟩, false, 1, some fast⟩,
    ⟨⟨"L3", .perCycle 32, "half-duplex", none, none⟩, false, 14, some fast⟩,
    ⟨⟨"MEM", .memory, "half-duplex", none, none⟩, false, 14, some mem⟩], bench⟩

def row : Dist Nat := ⟨0, 6000000, 6000000⟩

def work : Work Nat := ⟨[row], 5, 4, 5 * 6000000000⟩

/-- The caches of the machine, with a third level of the given size. -/
def withL3 (size : Int) : List (Cache Nat) :=
  [32768, 262144, size].map fun s => ⟨s, false, fun _ => false, [row]⟩

theorem haswell_sane : Sane haswell where
  clock := by decide +kernel
  rates := by
    intro l hl r hr
    simp only [haswell, List.mem_cons, List.not_mem_nil, or_false] at hl
    rcases hl with rfl | rfl | rfl | rfl <;> simp at hr <;> subst hr <;> norm_num
  penalties := by
    intro l hl p hp
    simp only [haswell, List.mem_cons, List.not_mem_nil, or_false] at hl
    rcases hl with rfl | rfl | rfl | rfl <;> simp at hp
  kernels := by decide +kernel
  measured := by
    intro l hl x hx
    simp only [haswell, List.mem_cons, List.not_mem_nil, or_false] at hl
    rcases hl with rfl | rfl | rfl | rfl <;> simp only [Option.some_inj] at hx <;> subst hx <;> decide +kernel

theorem withL3_larger (s s' : Int) (h : s ≤ s') : Larger work (withL3 s) (withL3 s') := by
  have ht : IsTails work.ds [row] := ⟨by decide, by intro d; rfl, by simp⟩
  exact .cons ⟨ht, ht, le_refl _⟩ (.cons ⟨ht, ht, le_refl _⟩ (.cons ⟨ht, ht, h⟩ .nil))

/-- C138 fails for the ECM model: with a third level of 72 MB instead of 36 MB one of the ten cachelines is no longer
transferred from memory, but the prediction is higher since the traffic now resembles the update benchmark. -/
theorem C138_negation_ecm : Sane haswell ∧ Larger work (withL3 35999999) (withL3 72000000) ∧
    ∃ t t', ecm haswell 8 4 4 work (withL3 35999999) = some t ∧ ecm haswell 8 4 4 work (withL3 72000000) = some t' ∧ t < t' := by
  refine ⟨haswell_sane, withL3_larger _ _ (by decide), ?_⟩
  have h : (ecm haswell 8 4 4 work (withL3 35999999)).isSome ∧ (ecm haswell 8 4 4 work (withL3 72000000)).isSome ∧
      (ecm haswell 8 4 4 work (withL3 35999999)).getD 0 < (ecm haswell 8 4 4 work (withL3 72000000)).getD 0 := by decide +kernel
  obtain ⟨h1, h2, h3⟩ := h
  obtain ⟨t, ht⟩ := Option.isSome_iff_exists.1 h1
  obtain ⟨t', ht'⟩ := Option.isSome_iff_exists.1 h2
  rw [ht, ht'] at h3
  exact ⟨t, t', ht, ht', h3⟩

/-- C138 fails for the Roofline model in the same way. -/
theorem C138_negation_roofline : Sane haswell ∧ Larger work (withL3 35999999) (withL3 72000000) ∧
    ∃ p p', roofline haswell 8 14 16 32 work (withL3 35999999) = some p ∧
      roofline haswell 8 14 16 32 work (withL3 72000000) = some p' ∧ p' < p := by
  refine ⟨haswell_sane, withL3_larger _ _ (by decide), ?_⟩
  have h : (roofline haswell 8 14 16 32 work (withL3 35999999)).isSome ∧ (roofline haswell 8 14 16 32 work (withL3 72000000)).isSome ∧
      (roofline haswell 8 14 16 32 work (withL3 72000000)).getD 0 < (roofline haswell 8 14 16 32 work (withL3 35999999)).getD 0 := by
    decide +kernel
  obtain ⟨h1, h2, h3⟩ := h
  obtain ⟨t, ht⟩ := Option.isSome_iff_exists.1 h1
  obtain ⟨t', ht'⟩ := Option.isSome_iff_exists.1 h2
  rw [ht, ht'] at h3
  exact ⟨t, t', ht, ht', h3⟩

/-! ### The parts that hold, on examples -/

/-- The machine with a single benchmark. -/
def loadOnly : Mach := { haswell with kernels := [("load", ⟨1, 0, 0, 8, 0, 0⟩)] }

theorem loadOnly_sane : Sane loadOnly :=
  ⟨haswell_sane.clock, haswell_sane.rates, haswell_sane.penalties, by decide +kernel, haswell_sane.measured⟩

example : ∃ t', ecm loadOnly 8 4 4 work (withL3 72000000) = some t' ∧
    t' ≤ ((ecm loadOnly 8 4 4 work (withL3 35999999)).getD 0) :=
  C138_ecm_partial loadOnly loadOnly_sane 8 4 4 work _ _ (withL3_larger 35999999 72000000 (by decide))
    (fun i _ _ _ => steady_of_reading loadOnly (by decide) none i) _ (by decide +kernel)
example : (ecm loadOnly 8 4 4 work (withL3 72000000)).getD 0 < (ecm loadOnly 8 4 4 work (withL3 35999999)).getD 0 := by decide +kernel

example : (roofline loadOnly 8 14 16 32 work (withL3 35999999)).getD 0 < (roofline loadOnly 8 14 16 32 work (withL3 72000000)).getD 0 := by
  decide +kernel
example : ∃ p', roofline loadOnly 8 14 16 32 work (withL3 72000000) = some p' ∧
    ((roofline loadOnly 8 14 16 32 work (withL3 35999999)).getD 0) ≤ p' :=
  C138_roofline_partial loadOnly loadOnly_sane 8 14 16 32 work _ _ (withL3_larger 35999999 72000000 (by decide))
    (fun i _ => steady_of_reading loadOnly (by decide) (some 14) i) _ (by decide +kernel)

/-- A second level that holds the rows. -/
def largeL2 : List (Cache Nat) :=
  [32768, 40000000, 50000000].map fun s => ⟨s, false, fun _ => false, [row]⟩

theorem largeL2_larger : Larger work (withL3 50000000) largeL2 := by
  have ht : IsTails work.ds [row] := ⟨by decide, by intro d; rfl, by simp⟩
  exact .cons ⟨ht, ht, by decide⟩ (.cons ⟨ht, ht, by decide⟩ (.cons ⟨ht, ht, by decide⟩ .nil))

example : ∃ t', ecm haswell 8 4 4 work largeL2 = some t' ∧ t' ≤ (ecm haswell 8 4 4 work (withL3 50000000)).getD 0 :=
  C138_ecm_inner_partial haswell haswell_sane 8 4 4 work _ _ largeL2_larger (by
    intro k l c c' hl hr hc hc'
    match k with
    | 0 => simp [haswell] at hl; subst hl; simp at hr
    | 1 => simp [haswell] at hl; subst hl; simp at hr
    | 2 => simp [withL3] at hc; simp [largeL2] at hc'; subst hc hc'; rfl
    | k + 3 => simp [haswell] at hl) _ (by decide +kernel)
example : (ecm haswell 8 4 4 work largeL2).getD 0 < (ecm haswell 8 4 4 work (withL3 50000000)).getD 0 := by decide +kernel

/-- The rows are read only. -/
def reading : Work Nat := ⟨[row], 1, 0, 6000000000⟩

example : ∃ t', ecm haswell 8 4 4 reading (withL3 72000000) = some t' ∧
    t' ≤ (ecm haswell 8 4 4 reading (withL3 10000000)).getD 0 :=
  C138_ecm_reading_partial haswell haswell_sane 8 4 4 reading _ _ (withL3_larger 10000000 72000000 (by decide)) rfl _ (by decide +kernel)
example : (ecm haswell 8 4 4 reading (withL3 72000000)).getD 0 < (ecm haswell 8 4 4 reading (withL3 10000000)).getD 0 := by decide +kernel
example : ∃ p', roofline haswell 8 14 16 0 reading (withL3 72000000) = some p' ∧
    (roofline haswell 8 14 16 0 reading (withL3 10000000)).getD 0 ≤ p' :=
  C138_roofline_reading_partial haswell haswell_sane 8 14 16 0 reading _ _ (withL3_larger 10000000 72000000 (by decide)) rfl _
    (by decide +kernel)

end Verif.Predict
