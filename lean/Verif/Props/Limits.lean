import Verif.Lemmas.Limits
import Verif.Props.Predict

/-!
Property C144: the ECM model respects the limits of the Roofline model and reaches that of the memory at saturation. Model:
`Verif.Limits`, `Verif.Predict`, `Verif.Transfer`, `Verif.Perf`; specification: `Spec/Limits.lean`.
-/

namespace Verif.Limits

open Verif.Perf Verif.Predict

/-- C144: for any number of cores the ECM model predicts at most the performance of the in-core model that the Roofline
model has for these cores. Missing: downward pointer increments that are no multiple of the element, see
`C144_negation_increment`. -/
theorem C144_incore_partial (m : Mach) (hm : Sane m) (hcl : 0 < m.clSize) (elSize flops numa perSocket sockets : Nat) (hn : 0 < numa)
    (b : Block) (hb : 0 ≤ b.throughput) (hi : 0 ≤ b.increment ∨ (elSize : Int) ∣ b.increment) (loads stores : List Nat) (cores : Nat)
    (hc : 0 < cores) (v : Val) (p : ℚ) (h : ecmPerf m elSize flops numa perSocket sockets b loads stores cores = some v)
    (hp : cpuLimit m elSize b cores = some p) : AtMost v (p : WithTop ℚ) := by
  unfold ecmPerf at h
  split at h
  · cases h
  rename_i r hr
  split at h
  · cases h
  rename_i t tm ht
  split at h
  · cases h
  rename_i x hx
  unfold cpuLimit Transfer.asmPerf at hp
  split at hp
  · cases hp
  rename_i hel
  simp only at hp
  split at hp
  · cases hp
  rename_i hne
  split at hp
  · cases hp
  rename_i htp
  have hp := Option.some.inj hp
  have htp : 0 < b.throughput := lt_of_le_of_ne hb (Ne.symm htp)
  have helq : (0 : ℚ) < elSize := by exact_mod_cast Nat.pos_of_ne_zero hel
  have hclq : (0 : ℚ) < m.clSize := by exact_mod_cast hcl
  have hcq : (0 : ℚ) < cores := by exact_mod_cast hc
  -- the block
  have hr0 := incore_nonneg _ _ _ _ _ _ _ _ hr
  obtain ⟨ratio, e1, e2, -⟩ := C57_scaled _ _ _ _ _ _ _ _ hr
  have hmax := C57_not_below_throughput _ _ _ _ _ _ _ _ hr
  obtain ⟨a1, a2, a3, a4, -⟩ := times_spec m hm elSize _ _ hr0.1 hr0.2 loads stores t tm ht
  have hclt : r.clThroughput ≤ t := le_trans hmax (max_le a1 a2)
  generalize hk : (b.increment.fdiv elSize).natAbs = k at e1
  have hkq : (0 : ℚ) < k := by
    rcases Nat.eq_zero_or_pos k with rfl | hk0
    · rw [Nat.zero_mul, Nat.cast_zero, mul_zero] at e1
      exact absurd e1 hclq.ne
    · exact_mod_cast hk0
  have hrat : ratio = m.clSize / (k * elSize) := by
    rw [eq_div_iff (by positivity)]
    push_cast at e1
    linarith
  have hr1 : 0 < ratio := by rw [hrat]; positivity
  have ht0 : 0 < t := lt_of_lt_of_le (by rw [e2]; positivity) hclt
  have hx1 := scaling_linear tm t a3 a4 ht0 numa perSocket sockets cores hn hc x hx
  have hx0 : 0 < x := lt_of_lt_of_le (by positivity) hx1
  -- elements of the block
  have hkp : (k : ℚ) ≤ |(b.increment : ℚ) / elSize| := by
    rcases hi with hi | ⟨q, hq⟩
    · have hnn : 0 ≤ b.increment.fdiv elSize := Int.fdiv_nonneg hi (by positivity)
      have hk' : ((k : Int) : ℚ) = ((b.increment.fdiv elSize : Int) : ℚ) := by
        rw [← hk, Int.natAbs_of_nonneg hnn]
      have : (k : ℚ) = ((b.increment.fdiv elSize : Int) : ℚ) := by exact_mod_cast hk'
      rw [this, abs_of_nonneg (by positivity), le_div_iff₀ helq, Int.fdiv_eq_ediv_of_nonneg _ (by positivity)]
      exact_mod_cast Int.ediv_mul_le b.increment (by exact_mod_cast hel)
    · have hq' : b.increment.fdiv elSize = q := by
        rw [hq, Int.mul_fdiv_cancel_left _ (by exact_mod_cast hel)]
      rw [← hk, hq', hq]
      push_cast
      rw [mul_div_cancel_left₀ _ helq.ne', Nat.cast_natAbs]
      simp
  unfold convCPU at h
  rw [if_neg hel] at h
  simp only [if_neg hx0.ne', Option.map_some, Option.some.injEq] at h
  rw [← h]
  simp only [AtMost, WithTop.coe_le_coe]
  rw [← hp]
  have hele : ((m.clSize / elSize : Nat) : ℚ) * elSize ≤ m.clSize := by exact_mod_cast Nat.div_mul_le_self _ _
  have hck := hm.clock
  have hT : b.throughput * (m.clSize / (k * elSize)) ≤ x * cores := by
    rw [← hrat, ← e2]
    rw [div_le_iff₀ hcq] at hx1
    linarith
  have h1 : m.clock / x * ((m.clSize / elSize : Nat) : ℚ) ≤ m.clock / b.throughput * k * cores := by
    rw [div_mul_eq_mul_div, div_mul_eq_mul_div, div_mul_eq_mul_div, div_le_div_iff₀ hx0 htp]
    have h2 : b.throughput * ((m.clSize / elSize : Nat) : ℚ) ≤ x * cores * k := by
      rw [mul_div_assoc', div_le_iff₀ (by positivity)] at hT
      have h3 : b.throughput * ((m.clSize / elSize : Nat) : ℚ) * elSize ≤ x * cores * k * elSize := by
        calc b.throughput * ((m.clSize / elSize : Nat) : ℚ) * elSize
            = b.throughput * (((m.clSize / elSize : Nat) : ℚ) * elSize) := by ring
          _ ≤ b.throughput * m.clSize := mul_le_mul_of_nonneg_left hele hb
          _ ≤ x * cores * k * elSize := by linarith
      exact le_of_mul_le_mul_right h3 helq
    calc m.clock * ((m.clSize / elSize : Nat) : ℚ) * b.throughput
        = m.clock * (b.throughput * ((m.clSize / elSize : Nat) : ℚ)) := by ring
      _ ≤ m.clock * (x * cores * k) := mul_le_mul_of_nonneg_left h2 hck
      _ = m.clock * k * cores * x := by ring
  refine le_trans h1 ?_
  refine mul_le_mul_of_nonneg_right (mul_le_mul_of_nonneg_left hkp (by positivity)) hcq.le

/-- C144: within a NUMA domain the ECM model predicts at most the largest limit that the Roofline model has for the memory,
over the numbers of cores of the domain. Missing: the limit for the same number of cores, and memory that is read and written
at the same time, see the negations. -/
theorem C144_memory_partial (m : Mach) (hm : Sane m) (hck : 0 < m.clock) (hd : HalfDuplex m) (hcm : Complete m) (el elSize : Nat)
    (he : 0 < elSize) (hel : 0 < el) (hcl : m.clSize = el * elSize) (flops numa perSocket sockets : Nat) (b : Block)
    (loads stores : List Nat) (cores : Nat) (hc : 0 < cores) (hcn : cores ≤ numa) (v : Val)
    (h : ecmPerf m elSize flops numa perSocket sockets b loads stores cores = some v) :
    ∃ p, IsGreatest (memLimits m elSize loads stores) p ∧ AtMost v p := by
  unfold ecmPerf at h
  split at h
  · cases h
  rename_i r hr
  split at h
  · cases h
  rename_i t tm ht
  split at h
  · cases h
  rename_i x hx
  obtain ⟨h1, h2⟩ := incore_nonneg _ _ _ _ _ _ _ _ hr
  obtain ⟨p, hp, hp0, hp1⟩ := memory_limit m hm hck hd hcm el elSize he hel hcl loads stores _ _ t tm h1 h2 ht
  obtain ⟨-, -, a3, a4, -⟩ := times_spec m hm elSize _ _ h1 h2 loads stores t tm ht
  refine ⟨p, hp, ?_⟩
  have hdiv : m.clSize / elSize = el := by rw [hcl, Nat.mul_div_cancel _ he]
  unfold convCPU at h
  rw [if_neg he.ne', hdiv] at h
  simp only [Option.map_some, Option.some.injEq] at h
  by_cases h0 : tm = 0
  · rw [hp0 h0, ← h]
    split
    · rfl
    · exact le_top
  · have htm : 0 < tm := lt_of_le_of_ne a3 (Ne.symm h0)
    have hxm := C25_memory_bound tm t htm a4 numa perSocket sockets cores hc hcn x hx
    have hx0 : 0 < x := lt_of_lt_of_le htm hxm
    rw [if_neg hx0.ne'] at h
    rw [← h, hp1 h0]
    simp only [AtMost, WithTop.coe_le_coe]
    refine mul_le_mul_of_nonneg_right (div_le_div_of_nonneg_left hck.le htm hxm) (by positivity)

/-- C144: as soon as the ECM model regards the memory interface as saturated, its prediction is the largest limit that the
Roofline model has for the memory. -/
theorem C144_saturated (m : Mach) (hm : Sane m) (hck : 0 < m.clock) (hd : HalfDuplex m) (hcm : Complete m) (el elSize : Nat)
    (he : 0 < elSize) (hel : 0 < el) (hcl : m.clSize = el * elSize) (flops numa perSocket sockets : Nat) (b : Block)
    (loads stores : List Nat) (r : Incore) (hr : analyzeCPU b.throughput b.cycles b.olPorts b.nolPorts b.increment elSize m.clSize = some r)
    (t tm : ℚ) (ht : times m elSize r.tComp r.tRegL1 loads stores = some (t, tm)) (h0 : tm ≠ 0)
    (s cores : Nat) (hs : scalingCores tm t numa = some s) (hsc : s ≤ cores) (hcn : cores ≤ numa) :
    ∃ q, ecmPerf m elSize flops numa perSocket sockets b loads stores cores = some (.fin q) ∧
      IsGreatest (memLimits m elSize loads stores) (q : WithTop ℚ) := by
  obtain ⟨h1, h2⟩ := incore_nonneg _ _ _ _ _ _ _ _ hr
  obtain ⟨p, hp, -, hp1⟩ := memory_limit m hm hck hd hcm el elSize he hel hcl loads stores _ _ t tm h1 h2 ht
  obtain ⟨-, -, a3, a4, -⟩ := times_spec m hm elSize _ _ h1 h2 loads stores t tm ht
  have htm : 0 < tm := lt_of_le_of_ne a3 (Ne.symm h0)
  have hdiv : m.clSize / elSize = el := by rw [hcl, Nat.mul_div_cancel _ he]
  refine ⟨m.clock / tm * el, ?_, by rw [← hp1 h0]; exact hp⟩
  -- the interface is used completely
  have hs1 : 0 < s ∧ util tm t s = 1 := by
    unfold scalingCores at hs
    have hmem := List.mem_of_find?_eq_some hs
    have hsat := List.find?_some hs
    obtain ⟨k, -, rfl⟩ := List.mem_map.1 hmem
    simp only [Nat.add_sub_cancel, decide_eq_true_eq] at hsat
    refine ⟨by omega, ?_⟩
    simp only [util]
    rw [if_pos]
    convert hsat using 2
  have hu : util tm t cores = 1 := by
    have hge := C25_utilisation_monotone tm t htm a4 s cores hsc
    have hle := (C25_utilisation_bounds tm t htm a4 cores (by omega)).2
    rw [hs1.2] at hge
    linarith
  unfold ecmPerf
  rw [hr]
  simp only [ht]
  rw [scaling_eq tm t htm a4 numa perSocket sockets cores (by omega) (by omega) (Or.inl hcn), if_pos hcn, hu, div_one]
  simp [convCPU, he.ne', hdiv, h0]

/-! ### Witnesses

`HaswellEP_E5-2695v3.yml` with its memory bandwidths in MB/s, and a kernel that reads one array. -/

def wMem : Machine.Meas :=
  ⟨1, [1, 2, 3, 4, 5, 6, 7, 8, 9, 10, 11, 12, 13, 14],
    [("copy", [8350, 17300, 22970, 27710, 30990, 32560, 33870, 34490, 34850, 35100, 35300, 35420, 35470, 35570]),
     ("daxpy", [12490, 25700, 35170, 42430, 47080, 49510, 51390, 51750, 52100, 52510, 52620, 52750, 52730, 52740]),
     ("load", [8930, 17890, 26480, 34570, 42120, 48790, 54250, 57960, 59890, 60790, 61250, 61530, 61670, 61820]),
     ("triad", [9700, 20130, 27730, 33990, 38190, 41180, 42830, 43590, 43990, 44120, 44200, 44220, 44210, 44190]),
     ("update", [13890, 26570, 36000, 42760, 46520, 47100, 47300, 47160, 47070, 47020, 46930, 46850, 46780, 46740])]⟩

def wMach (duplex : String) : Mach :=
  ⟨64, 2300, [⟨⟨"L1", .text, "", none, none⟩, false, 1, none⟩, ⟨⟨"L2", .perCycle 64, "half-duplex", none, none⟩, false, 1, none⟩,
    ⟨⟨"L3", .perCycle 32, "half-duplex", none, none⟩, false, 14, none⟩,
    ⟨⟨"MEM", .memory, duplex, none, none⟩, false, 14, some wMem⟩], bench⟩

/-- Two loads of 32 bytes in a block that takes two cycles. -/
def wBlock (increment : Int) : Block := ⟨2, [("2D", 2), ("3D", 2), ("0", 1)], ["0"], ["2D", "3D"], increment⟩

def finite : Option Val → ℚ
  | some (.fin q) => q
  | _ => 0

def limit : Option (WithTop ℚ) → ℚ
  | some (q : ℚ) => q
  | _ => 0

theorem wMach_sane (duplex : String) : Sane (wMach duplex) where
  clock := by simp [wMach]
  rates := by
    intro l hl r hr
    simp only [wMach, List.mem_cons, List.not_mem_nil, or_false] at hl
    rcases hl with rfl | rfl | rfl | rfl <;> simp at hr <;> subst hr <;> norm_num
  penalties := by
    intro l hl p hp
    simp only [wMach, List.mem_cons, List.not_mem_nil, or_false] at hl
    rcases hl with rfl | rfl | rfl | rfl <;> simp at hp
  kernels := by
    have : ∀ k ∈ bench, 0 < k.2.readBytes + k.2.writeBytes ∧ k.2.rwBytes ≤ k.2.writeBytes := by decide +kernel
    exact this
  measured := by
    intro l hl x hx
    simp only [wMach, List.mem_cons, List.not_mem_nil, or_false] at hl
    rcases hl with rfl | rfl | rfl | rfl <;> simp only [reduceCtorEq, Option.some.injEq] at hx
    subst hx
    decide +kernel

theorem wMach_complete (duplex : String) : Complete (wMach duplex) := by
  intro l x hl hx
  simp only [wMach, List.getLast?_cons_cons, List.getLast?_singleton, Option.some.injEq] at hl
  subst hl
  simp only [Option.some.injEq] at hx
  subst hx
  refine ⟨by decide, fun k r hr => ?_⟩
  have : ∀ y ∈ wMem.results, y.2.length = wMem.cores.length := by decide
  exact this _ (Layout.lookup_mem _ _ _ hr)

theorem wMach_halfDuplex : HalfDuplex (wMach "half-duplex") := ⟨_, rfl, by decide, rfl, rfl⟩

/-- The prediction for some cores. -/
def wEcm (duplex : String) (increment : Int) (cores : Nat) : Option Val :=
  ecmPerf (wMach duplex) 8 1 14 14 2 (wBlock increment) [0, 1, 1, 1] [0, 0, 0, 0] cores

example : 0 < finite (wEcm "half-duplex" 64 4) ∧ AtMost (.fin (finite (wEcm "half-duplex" 64 4)))
    ((limit ((cpuLimit (wMach "half-duplex") 8 (wBlock 64) 4).map fun q => (q : WithTop ℚ)) : ℚ) : WithTop ℚ) := by
  refine ⟨by decide +kernel, ?_⟩
  exact C144_incore_partial (wMach "half-duplex") (wMach_sane _) (by decide) 8 1 14 14 2 (by decide) (wBlock 64) (by decide +kernel)
    (Or.inl (by decide)) [0, 1, 1, 1] [0, 0, 0, 0] 4 (by decide) _ _ (by decide +kernel) (by decide +kernel)

example : ∃ p, IsGreatest (memLimits (wMach "half-duplex") 8 [0, 1, 1, 1] [0, 0, 0, 0]) p ∧
    AtMost (.fin (finite (wEcm "half-duplex" 64 4))) p :=
  C144_memory_partial (wMach "half-duplex") (wMach_sane _) (by decide) wMach_halfDuplex (wMach_complete _) 8 8 (by decide) (by decide) rfl
    1 14 14 2 (wBlock 64) _ _ 4 (by decide) (by decide) _ (by decide +kernel)

/-- Saturated with eight cores. -/
example : (analyzeCPU 2 [("2D", 2), ("3D", 2), ("0", 1)] ["0"] ["2D", "3D"] 64 8 64).isSome ∧
    (times (wMach "half-duplex") 8 1 2 [0, 1, 1, 1] [0, 0, 0, 0]).isSome ∧
    wEcm "half-duplex" 64 8 = some (.fin (limit (memLimit (wMach "half-duplex") 8 [0, 1, 1, 1] [0, 0, 0, 0] 14))) ∧
    finite (wEcm "half-duplex" 64 1) < finite (wEcm "half-duplex" 64 8) := by decide +kernel

/-- C144 fails for the limit of the same number of cores: the ECM model uses the bandwidth of all cores for each of them. -/
theorem C144_negation_cores : 0 < limit (memLimit (wMach "half-duplex") 8 [0, 1, 1, 1] [0, 0, 0, 0] 1) ∧
    limit (memLimit (wMach "half-duplex") 8 [0, 1, 1, 1] [0, 0, 0, 0] 1) <
    finite (wEcm "half-duplex" 64 1) := by decide +kernel

/-- C144 fails for downward pointer increments that are no multiple of the element: the ECM model rounds them to the larger
block. Here all data is in the first cache. -/
theorem C144_negation_increment : 0 < (cpuLimit (wMach "half-duplex") 8 (wBlock (-12)) 1).getD 0 ∧
    (cpuLimit (wMach "half-duplex") 8 (wBlock (-12)) 1).getD 0 <
    finite (ecmPerf (wMach "half-duplex") 8 1 14 14 2 (wBlock (-12)) [0, 0, 0, 0] [0, 0, 0, 0] 1) := by decide +kernel

/-- C144 fails for memory that is read and written at the same time: only the ECM model takes it into account. -/
theorem C144_negation_duplex : ∀ c ∈ counts (wMach "full-duplex"),
    0 < limit (memLimit (wMach "full-duplex") 8 [0, 2, 2, 2] [0, 1, 1, 1] c) ∧
    limit (memLimit (wMach "full-duplex") 8 [0, 2, 2, 2] [0, 1, 1, 1] c) <
      finite (ecmPerf (wMach "full-duplex") 8 1 14 14 2 (wBlock 64) [0, 2, 2, 2] [0, 1, 1, 1] 14) := by decide +kernel

end Verif.Limits
