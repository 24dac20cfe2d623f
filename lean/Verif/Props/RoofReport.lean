import Verif.Lemmas.RoofReport
import Mathlib.Order.Bounds.Basic

/-!
C127: the verdict of the Roofline reports.
-/

namespace Verif.RoofReport

open Verif.Perf Verif.Transfer

/-- C127 for the in-core variant: the reported performance is the largest at which the cores execute the blocks and all levels sustain the transfers, in the
requested unit; if a level is named it is the first that is saturated, with its benchmark and iterations per byte, and otherwise no level limits it.
Missing: inner loops with other increments (C78, C79). -/
theorem C127_asm_partial (x : Input) (throughput : ℚ) (inc : Int) (u : PerfUnit) (hv : Valid x) (ht : 0 < throughput) (hi : inc ≠ 0) :
    ∃ p v : ℚ, IsGreatest {q : ℚ | Executes x throughput inc q ∧ ∀ r ∈ x.rows, Sustains (q : WithTop ℚ) (demand x r)} p ∧
      InUnit x.clock (iterationsPerCl x.clSize x.elSize 1) x.flops p u v ∧
      ((asmReport x throughput inc u = .ok (.cpu (.value (.fin v))) ∧ ∀ r ∈ x.rows, ¬ Saturates (p : WithTop ℚ) (demand x r)) ∨
        ∃ (i : Nat) (r : Row) (a : ℚ), asmReport x throughput inc u = .ok (.mem (.value (.fin v)) r.name r.kernel (.fin a)) ∧ x.rows[i]? = some r ∧
          Saturates (p : WithTop ℚ) (demand x r) ∧ a * (demand x r).1 = 1 ∧
          ∀ (j : Nat) s, j < i → x.rows[j]? = some s → ¬ Saturates (p : WithTop ℚ) (demand x s)) := by
  obtain ⟨n, hn, hc⟩ := hv.cl
  have hmul : x.clSize / x.elSize = n := by rw [hc, Nat.mul_div_cancel _ hv.el]
  have hs : (0 : ℚ) < x.elSize := by exact_mod_cast hv.el
  have hcl := hv.clock
  have hco : (0 : ℚ) < x.cores := by exact_mod_cast hv.cores
  have hi' : (0 : ℚ) < |(inc : ℚ)| := abs_pos.2 (by exact_mod_cast hi)
  obtain ⟨i0, p0, hca, -, -⟩ := cacheAccess_ok x n hv hn hc
  obtain ⟨bs, hbs, hb⟩ := bottlenecks_ok x (perfs x n) hv.el (perfs_pos x n hv hn hc)
  -- the limit of the cores
  have hasm : asmPerf x.clock throughput inc x.elSize x.cores = some (x.clock / throughput * (|(inc : ℚ)| / x.elSize) * x.cores) := by
    unfold asmPerf
    have he : |(inc : ℚ) / x.elSize| = |(inc : ℚ)| / x.elSize := by rw [abs_div, abs_of_pos hs]
    simp only [if_neg hv.el.ne', he]
    rw [if_neg (by positivity), if_neg ht.ne']
  generalize hQ : x.clock / throughput * (|(inc : ℚ)| / x.elSize) * x.cores = Q at hasm
  have hQ0 : 0 < Q := by rw [← hQ]; positivity
  have hexec : ∀ q : ℚ, Executes x throughput inc q ↔ q ≤ Q := by
    intro q
    have hQe : Q * (x.elSize * throughput) = x.clock * x.cores * |(inc : ℚ)| := by
      rw [← hQ]
      field_simp
    unfold Executes
    rw [mul_assoc, ← hQe]
    exact mul_le_mul_iff_left₀ (by positivity)
  -- the analysis
  have hrun : asmReport x throughput inc u = (match x.conv (rooflineAsm (perfs x n)).2 with
      | .error e => .error e
      | .ok m => match x.conv (Q : WithTop ℚ) with
        | .error e => .error e
        | .ok c => if valGt m.itS c.itS then .ok (.cpu (.value (get c u))) else memVerdict bs u (rooflineAsm (perfs x n)).1) := by
    unfold asmReport
    simp only [hca, hbs, hasm, bind, Except.bind]
    cases x.conv (rooflineAsm (perfs x n)).2 <;> [rfl; (cases x.conv (Q : WithTop ℚ) <;> rfl)]
  obtain ⟨c, v, hcQ, hcit, hget, hunit⟩ := inUnit_conv x Q hv hQ0 u
  have hrows : ∀ (i : Nat) q, (x.rows.map fun r => levelPerf x.clSize n r.loads r.stores r.bw)[i]? = some q →
      ∃ r, x.rows[i]? = some r ∧ q = levelPerf x.clSize n r.loads r.stores r.bw := by
    intro i q h
    rw [List.getElem?_map, Option.map_eq_some_iff] at h
    obtain ⟨r, h1, h2⟩ := h
    exact ⟨r, h1, h2.symm⟩
  have hasmfold := C27_bottleneck_asm ((x.l1.bw * (1 / (((x.reads + x.writes) * x.elSize : ℚ) / n)) : ℚ) : WithTop ℚ)
    (x.rows.map fun r => levelPerf x.clSize n r.loads r.stores r.bw)
  change (rooflineAsm (perfs x n) = _ ∧ _) ∨ ∃ i p, rooflineAsm (perfs x n) = _ ∧ _ at hasmfold
  -- the cores limit
  have cpu : (∀ r ∈ x.rows, (Q : WithTop ℚ) < levelPerf x.clSize n r.loads r.stores r.bw) →
      asmReport x throughput inc u = .ok (.cpu (.value (get c u))) →
      ∃ p v : ℚ, IsGreatest {q : ℚ | Executes x throughput inc q ∧ ∀ r ∈ x.rows, Sustains (q : WithTop ℚ) (demand x r)} p ∧
        InUnit x.clock (iterationsPerCl x.clSize x.elSize 1) x.flops p u v ∧
        asmReport x throughput inc u = .ok (.cpu (.value (.fin v))) ∧ ∀ r ∈ x.rows, ¬ Saturates (p : WithTop ℚ) (demand x r) := by
    intro hlt hrep
    refine ⟨Q, v, ⟨⟨(hexec Q).2 le_rfl, fun r hr => (level_limit x n hv hn hc r hr Q).2 (hlt r hr).le⟩, fun q hq => (hexec q).1 hq.1⟩, hunit, by rw [hrep, hget], ?_⟩
    intro r hr hsat
    exact (hlt r hr).ne ((level_saturates x n hv hn hc r hr Q).1 hsat)
  rcases hasmfold with ⟨h1, h2⟩ | ⟨i, p, h1, h2, h3, h4⟩
  · -- nothing is transferred
    obtain ⟨m, hm, hmi, -⟩ := conv_top x hv.el
    rw [h1] at hrun
    simp only [hm, hcQ, hmi, hcit, valGt, if_true] at hrun
    obtain ⟨p, v, h5, h6, h7⟩ := cpu (fun r hr => by rw [h2 _ (List.mem_map.2 ⟨r, hr, rfl⟩)]; exact WithTop.coe_lt_top _) hrun
    exact ⟨p, v, h5, h6, Or.inl h7⟩
  · cases p with
    | top => exact absurd rfl h3
    | coe q =>
      obtain ⟨r, hr, hq⟩ := hrows i _ h2
      have hrm : r ∈ x.rows := List.mem_of_getElem? hr
      have hmin : ∀ (j : Nat) s, x.rows[j]? = some s → (q : WithTop ℚ) ≤ levelPerf x.clSize n s.loads s.stores s.bw ∧
          (j < i → (q : WithTop ℚ) < levelPerf x.clSize n s.loads s.stores s.bw) := by
        intro j s hj
        exact h4 j _ (by rw [List.getElem?_map, hj]; rfl)
      have hq0 : 0 < q := by
        have := levelPerf_pos x.clSize n r.loads r.stores r.bw (by rw [hc]; exact Nat.mul_pos hn hv.el) hn (hv.rows r hrm).1 (hv.rows r hrm).2.1 (hv.rows r hrm).2.2
        rw [← hq] at this
        exact_mod_cast this
      obtain ⟨m, w, hmq, hmit, hmget, hmunit⟩ := inUnit_conv x q hv hq0 u
      rw [h1] at hrun
      simp only [hmq, hcQ, hmit, hcit, valGt] at hrun
      by_cases hlt : Q < q
      · simp only [hlt, decide_true, if_true] at hrun
        obtain ⟨p, v, h5, h6, h7⟩ := cpu (fun s hs => by
          obtain ⟨j, hj⟩ := List.getElem?_of_mem hs
          exact lt_of_lt_of_le (WithTop.coe_lt_coe.2 hlt) (hmin j s hj).1) hrun
        exact ⟨p, v, h5, h6, Or.inl h7⟩
      · simp only [hlt, decide_false, Bool.false_eq_true, if_false] at hrun
        obtain ⟨a, ha, ha1⟩ := intensity_spec x n hv hn hc r q hq
        obtain ⟨c', hc', hbi⟩ := hb (i + 1) q (r, levelIntensity x.clSize n r) (by simpa [perfs] using h2) (by simp [entries, hr, hmul])
        rw [hmq, Except.ok.injEq] at hc'
        subst hc'
        refine ⟨q, w, ⟨⟨(hexec q).2 (not_lt.1 hlt), fun s hs => ?_⟩, fun q' hq' => ?_⟩, hmunit, Or.inr ⟨i, r, a, ?_, hr,
          (level_saturates x n hv hn hc r hrm q).2 hq, ha1, fun j s hj hjs hsat => ?_⟩⟩
        · obtain ⟨j, hj⟩ := List.getElem?_of_mem hs
          exact (level_limit x n hv hn hc s hs q).2 (hmin j s hj).1
        · have := (level_limit x n hv hn hc r hrm q').1 (hq'.2 r hrm)
          rw [← hq] at this
          exact_mod_cast this
        · rw [hrun]
          simp only [memVerdict, hbi, hmget, ha]
        · have h5 := (level_saturates x n hv hn hc s (List.mem_of_getElem? hjs) q).1 hsat
          exact ((hmin j s hjs).2 hj).ne h5

/-- C127 for the variant with the peak performance, for kernels with one flop per iteration: the reported performance is the largest at which neither the peak
nor the bandwidth of a level is exceeded; a level is named if it is saturated, and it is the first of these. Missing: kernels with other numbers of flops (C80),
other increments (C78, C79), and the unit of the peak performance (`C127_negation_unit`). -/
theorem C127_flop_partial (x : Input) (flopsPerCycle : ℚ) (u : PerfUnit) (hv : Valid x) (hf : 0 < flopsPerCycle) (h1 : x.flops = 1) :
    ∃ p : ℚ, IsGreatest {q : ℚ | x.flops * q ≤ peakFlops x.clock x.cores flopsPerCycle ∧ ∀ d ∈ demandL1 x :: x.rows.map (demand x), Sustains (q : WithTop ℚ) d} p ∧
      ((∃ c, flopReport x flopsPerCycle u = .ok (.cpu (.dict c)) ∧ c.itS = .fin p ∧ c.flopS = .fin p ∧
          ∀ d ∈ demandL1 x :: x.rows.map (demand x), ¬ Saturates (p : WithTop ℚ) d) ∨
        ∃ (i : Nat) (r : Row) (d : ℚ × ℚ) (v a : ℚ), flopReport x flopsPerCycle u = .ok (.mem (.value (.fin v)) r.name r.kernel (.fin a)) ∧
          InUnit x.clock (iterationsPerCl x.clSize x.elSize 1) x.flops p u v ∧ (x.l1 :: x.rows)[i]? = some r ∧
          (demandL1 x :: x.rows.map (demand x))[i]? = some d ∧ Saturates (p : WithTop ℚ) d ∧ a * d.1 = 1 ∧
          ∀ (j : Nat) e, j < i → (demandL1 x :: x.rows.map (demand x))[j]? = some e → ¬ Saturates (p : WithTop ℚ) e) := by
  obtain ⟨n, hn, hc⟩ := hv.cl
  have hco : (0 : ℚ) < x.cores := by exact_mod_cast hv.cores
  have hcl := hv.clock
  obtain ⟨i, p, hca, hpi, hmin⟩ := cacheAccess_ok x n hv hn hc
  obtain ⟨bs, hbs, hb⟩ := bottlenecks_ok x (perfs x n) hv.el (perfs_pos x n hv hn hc)
  have hlen : (demandL1 x :: x.rows.map (demand x)).length = (perfs x n).length := by simp [perfs]
  -- the performance of the memory hierarchy is finite
  obtain ⟨q, rfl⟩ : ∃ q : ℚ, p = q := by
    have h0 := (hmin 0 _ (by rfl)).1
    cases p with
    | top => simp at h0
    | coe q => exact ⟨q, rfl⟩
  have hq0 : 0 < q := by
    have := perfs_pos x n hv hn hc _ (List.mem_of_getElem? hpi)
    exact_mod_cast this
  generalize hP : x.clock * x.cores * flopsPerCycle = P
  have hP0 : 0 < P := by rw [← hP]; positivity
  have hpeak : peakFlops x.clock x.cores flopsPerCycle = P := by rw [← hP]; unfold peakFlops; ring
  have hall : ∀ (j : Nat) d, (demandL1 x :: x.rows.map (demand x))[j]? = some d → ∃ p, (perfs x n)[j]? = some p := by
    intro j d hd
    have := (List.getElem?_eq_some_iff.1 hd).1
    rw [hlen] at this
    exact ⟨_, List.getElem?_eq_getElem this⟩
  obtain ⟨c, v, hcq, hcit, hget, hunit⟩ := inUnit_conv x q hv hq0 u
  have hcq' := conv_fin x q hv.el hq0.ne'
  have hmax : maxPerf x.clock x.clSize x.elSize x.flops x.cores flopsPerCycle =
      some ⟨.fin P, x.clock / P * (x.clSize / x.elSize), x.clock / P, .fin (P * x.flops)⟩ := by
    simp [maxPerf, convPerf, hP, hv.el.ne', hP0.ne', Val.scale]
  have hrun : flopReport x flopsPerCycle u = if P < q then
      .ok (.cpu (.dict ⟨.fin P, x.clock / P * (x.clSize / x.elSize), x.clock / P, .fin (P * x.flops)⟩)) else memVerdict bs u (some i) := by
    unfold flopReport
    simp only [hca, hbs, hcq', hmax, bind, Except.bind, cpuBound, valGt]
    simp [h1]
  rw [hpeak, h1, hrun]
  simp only [Nat.cast_one, one_mul]
  by_cases hlt : P < q
  · rw [if_pos hlt]
    refine ⟨P, ⟨⟨le_rfl, fun d hd => ?_⟩, fun q' hq' => hq'.1⟩, Or.inl ⟨_, rfl, rfl, by simp [h1], fun d hd hsat => ?_⟩⟩
    · obtain ⟨j, hj⟩ := List.getElem?_of_mem hd
      obtain ⟨p, hp⟩ := hall j d hj
      exact (all_limits x n hv hn hc j d p hj hp P).1.2 (le_trans (WithTop.coe_le_coe.2 hlt.le) (hmin j p hp).1)
    · obtain ⟨j, hj⟩ := List.getElem?_of_mem hd
      obtain ⟨p, hp⟩ := hall j d hj
      have h5 := (all_limits x n hv hn hc j d p hj hp P).2.1.1 hsat
      have h6 := (hmin j p hp).1
      rw [← h5] at h6
      exact absurd (WithTop.coe_le_coe.1 h6) (not_le.2 hlt)
  · rw [if_neg hlt]
    have hi : i < (demandL1 x :: x.rows.map (demand x)).length := by
      rw [hlen]
      exact (List.getElem?_eq_some_iff.1 hpi).1
    obtain ⟨d, hd⟩ : ∃ d, (demandL1 x :: x.rows.map (demand x))[i]? = some d := ⟨_, List.getElem?_eq_getElem hi⟩
    obtain ⟨hsus, hsat, hint⟩ := all_limits x n hv hn hc i d _ hd hpi q
    obtain ⟨r, a, hr, he, ha⟩ := hint rfl
    obtain ⟨c', hc', hbi⟩ := hb i _ _ hpi he
    rw [hcq, Except.ok.injEq] at hc'
    subst hc'
    refine ⟨q, ⟨⟨not_lt.1 hlt, fun d hd => ?_⟩, fun q' hq' => ?_⟩, Or.inr ⟨i, r, d, v, a, ?_, by rw [h1] at hunit; exact hunit, hr, hd, hsat.2 rfl, ha, fun j e hj he hse => ?_⟩⟩
    · obtain ⟨j, hj⟩ := List.getElem?_of_mem hd
      obtain ⟨p, hp⟩ := hall j d hj
      exact (all_limits x n hv hn hc j d p hj hp q).1.2 (hmin j p hp).1
    · have := (all_limits x n hv hn hc i d _ hd hpi q').1.1 (hq'.2 d (List.mem_of_getElem? hd))
      exact_mod_cast this
    · simp only [memVerdict, hbi, hget]
    · obtain ⟨p, hp⟩ := hall j e he
      have h5 := (all_limits x n hv hn hc j e p he hp q).2.1.1 hse
      exact ((hmin j p hp).2 hj).ne h5

/-- Two cores at 2 GHz with caches and memory; a kernel that loads two cachelines and stores one. -/
def sample (flops : Nat) (bw : ℚ) : Input where
  clock := 2
  cores := 2
  clSize := 64
  elSize := 8
  flops := flops
  reads := 16
  writes := 8
  l1 := ⟨"L1", "copy", 3, 1, 192⟩
  rows := [⟨"L2", "copy", 3, 1, 64⟩, ⟨"MEM", "copy", 3, 1, bw⟩]

example (flops : Nat) : Valid (sample flops 16) ∧ Valid (sample flops 400) := by
  constructor
  · refine ⟨by norm_num [sample], by norm_num [sample], by norm_num [sample], ⟨8, by decide, rfl⟩, by norm_num [sample], by norm_num [sample], ?_⟩
    simp [sample]
  · refine ⟨by norm_num [sample], by norm_num [sample], by norm_num [sample], ⟨8, by decide, rfl⟩, by norm_num [sample], by norm_num [sample], ?_⟩
    simp [sample]

-- memory limits, then a cache, then the cores
example : asmReport (sample 2 16) 8 64 .cyCl = .ok (.mem (.value (.fin 32)) "MEM" "copy" (.fin (1 / 32))) ∧
    asmReport (sample 2 400) 8 64 .itS = .ok (.mem (.value (.fin 2)) "L2" "copy" (.fin (1 / 32))) ∧
    asmReport (sample 2 400) 32 64 .itS = .ok (.cpu (.value (.fin 1))) := by decide +kernel

example : flopReport (sample 1 16) 4 .cyIt = .ok (.mem (.value (.fin 4)) "MEM" "copy" (.fin (1 / 32))) := by decide +kernel

/-- C127 does not hold: if the peak performance limits, all units are printed instead of the requested one. -/
theorem C127_negation_unit : flopReport (sample 1 400) (1 / 4) .cyCl = .ok (.cpu (.dict ⟨.fin 1, 16, 2, .fin 1⟩)) := by decide +kernel

end Verif.RoofReport
