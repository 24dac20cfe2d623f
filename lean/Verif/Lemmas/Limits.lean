import Verif.Props.Perf
import Verif.Props.Transfer
import Verif.Lemmas.Predict
import Verif.Spec.Limits

/-! Lemmas for C144. -/

namespace Verif.Limits

open Verif.Perf Verif.Predict

theorem portMax_nonneg (cycles : List (String × ℚ)) (ports : List String) : 0 ≤ portMax cycles ports := by
  unfold portMax
  induction ((cycles.filter (fun c => ports.contains c.1)).map (·.2)) with
  | nil => simp
  | cons a l ih => exact le_max_of_le_right ih

theorem incore_nonneg (tp : ℚ) (cycles : List (String × ℚ)) (ol nol : List String) (pinc : Int) (elSize clSize : Nat) (r : Incore)
    (h : analyzeCPU tp cycles ol nol pinc elSize clSize = some r) : 0 ≤ r.tComp ∧ 0 ≤ r.tRegL1 := by
  unfold analyzeCPU at h
  split at h
  · cases h
  simp only at h
  split at h
  · cases h
  rw [← Option.some.inj h]
  simp only
  refine ⟨?_, portMax_nonneg _ _⟩
  split
  · rename_i h'
    exact le_trans (portMax_nonneg _ _) h'.le
  · exact portMax_nonneg _ _

/-- Parallel runs are at most as many times faster as there are cores. -/
theorem scaling_linear (tMem tEcm : ℚ) (hm : 0 ≤ tMem) (he : tMem ≤ tEcm) (h0 : 0 < tEcm) (numa perSocket sockets cores : Nat)
    (hn : 0 < numa) (hc : 0 < cores) (x : ℚ) (h : scaling tMem tEcm numa perSocket sockets cores = .ok x) : tEcm / cores ≤ x := by
  rcases hm.eq_or_lt with rfl | hm
  · rw [C25_in_cache _ _ _ _ _ hc] at h
    exact (Except.ok.inj h).le
  have hu : ∀ n, util tMem tEcm n ≤ n * tMem / tEcm := by
    intro n
    cases n with
    | zero => simp [util]
    | succ n =>
      have hnn : 0 ≤ util tMem tEcm n * n * tMem / 2 := by
        rcases Nat.eq_zero_or_pos n with rfl | hp
        · simp
        · have := (C25_utilisation_bounds tMem tEcm hm he n hp).1
          positivity
      simp only [util]
      split
      · rename_i hs
        rw [le_div_iff₀ h0]
        linarith
      · exact div_le_div_of_nonneg_left (by positivity) h0 (by linarith)
  by_cases hr : cores ≤ numa ∨ cores ≤ perSocket * sockets
  · rw [scaling_eq tMem tEcm hm he numa perSocket sockets cores hn hc hr] at h
    have key : ∀ n, 0 < n → tEcm / n ≤ tMem / util tMem tEcm n := by
      intro n hp
      obtain ⟨h1, -⟩ := C25_utilisation_bounds tMem tEcm hm he n hp
      have hq : (0 : ℚ) < n := by exact_mod_cast hp
      have := hu n
      rw [le_div_iff₀ h0] at this
      rw [div_le_div_iff₀ hq h1]
      nlinarith
    have hcq : (0 : ℚ) < cores := by exact_mod_cast hc
    have hnq : (0 : ℚ) < numa := by exact_mod_cast hn
    have h := Except.ok.inj h
    rw [← h]
    split
    · exact key _ hc
    · rw [div_le_div_iff_of_pos_right hcq]
      have := key _ hn
      rw [div_le_iff₀ hnq] at this
      linarith
  · push Not at hr
    rw [C25_too_many_cores_rejected tMem tEcm hm he numa perSocket sockets cores hr.1 hr.2] at h
    cases h

theorem levelTime_nonneg (cl el : Nat) (clock : ℚ) (bw : Nat → ℚ → ℚ → Except Transfer.Err ℚ) (loads stores : List ℚ)
    (hc : 0 ≤ clock) (hl : ∀ x ∈ loads, 0 ≤ x) (hs : ∀ x ∈ stores, 0 ≤ x) (i : Nat) (l : Transfer.Level)
    (hr : ∀ r, l.rate = .perCycle r → 0 ≤ r) (hp : ∀ p, l.loadPenalty = some p ∨ l.storePenalty = some p → 0 ≤ p)
    (hb : ∀ ld st b, bw i ld st = .ok b → 0 ≤ b) (r : ℚ × ℚ)
    (h : Transfer.levelTime cl el clock bw loads stores i l = .ok r) : 0 ≤ r.1 ∧ 0 ≤ r.2 := by
  unfold Transfer.levelTime at h
  split at h
  · rename_i ld st hld hst
    have h1 := hl _ (List.mem_of_getElem? hld)
    have h2 := hs _ (List.mem_of_getElem? hst)
    split at h
    · cases hb' : bw i ld st with
      | error e => rw [hb'] at h; cases h
      | ok b =>
        have hb0 := hb _ _ _ hb'
        rw [hb'] at h
        simp only [bind, Except.bind] at h
        cases ht : Transfer.memTime cl el clock b ld st l.duplex with
        | error e => rw [ht] at h; cases h
        | ok c =>
          rw [ht] at h
          simp only [Except.ok.injEq] at h
          subst h
          refine ⟨?_, ?_⟩
          · unfold Transfer.memTime at ht
            split at ht
            · cases ht
            · split at ht
              · rw [← Except.ok.inj ht]; positivity
              · rw [← Except.ok.inj ht]; positivity
          · unfold Transfer.levelPenalty
            refine add_nonneg ?_ ?_
            · split
              · rename_i p e
                exact mul_nonneg h1 (hp _ (Or.inl e))
              · exact le_refl _
            · split
              · rename_i p e
                exact mul_nonneg h2 (hp _ (Or.inr e))
              · exact le_refl _
    · rename_i q e
      have hq := hr _ e
      simp only [bind, Except.bind] at h
      cases ht : Transfer.cacheTime cl q ld st l.duplex with
      | error e => rw [ht] at h; cases h
      | ok c =>
        rw [ht] at h
        simp only [Except.ok.injEq] at h
        subst h
        refine ⟨?_, le_refl _⟩
        unfold Transfer.cacheTime at ht
        split at ht
        · cases ht
        · simp only at ht
          split at ht
          · split at ht
            · cases ht
            · rw [← Except.ok.inj ht]; positivity
          · split at ht
            · split at ht
              · cases ht
              · rw [← Except.ok.inj ht]; positivity
            · cases ht
    · cases h
  · cases h

/-- All contributions are part of the prediction, and the time of the memory is that of the last level. -/
theorem times_spec (m : Mach) (hm : Sane m) (elSize : Nat) (tComp tReg : ℚ) (h1 : 0 ≤ tComp) (h2 : 0 ≤ tReg) (loads stores : List Nat)
    (t tm : ℚ) (h : times m elSize tComp tReg loads stores = some (t, tm)) :
    tComp ≤ t ∧ tReg ≤ t ∧ 0 ≤ tm ∧ tm ≤ t ∧ ∃ l p, m.levels.getLast? = some l ∧ 1 < m.levels.length ∧
      Transfer.levelTime m.clSize elSize m.clock (bandwidth m none) (nums loads) (nums stores)
        (m.levels.length - 1) l.base = .ok (tm, p) := by
  unfold times at h
  split at h
  · cases h
  rename_i l0 ls hls
  split at h
  · cases h
  rename_i cycles penalty hcy
  split at h
  · cases h
  rename_i ol nol hco
  unfold Transfer.calculateCycles at hcy
  split at hcy
  · cases hcy
  rename_i hel
  obtain ⟨ts, g1, g2, g3, g4⟩ := Transfer.timesFrom_spec _ _ _ _ _ _ _ _ _ _ _ hcy
  simp only [List.map_cons, List.tail_cons, List.length_map, List.nil_append] at g1 g2 g3 g4
  have hnn : ∀ x ∈ ts, 0 ≤ x.1 ∧ 0 ≤ x.2 := by
    intro x hx
    obtain ⟨k, hk⟩ := List.getElem?_of_mem hx
    obtain ⟨hkl, -⟩ := List.getElem?_eq_some_iff.1 hk
    have hk' : k < ls.length := by omega
    have hmem : ls[k] ∈ m.levels := by rw [hls]; simp
    refine levelTime_nonneg _ _ _ _ _ _ hm.clock ?_ ?_ _ (ls[k]).base (hm.rates _ hmem) (hm.penalties _ hmem) ?_ x
      (g4 k (ls[k]).base x (by simp [hk']) hk)
    · intro y hy
      obtain ⟨n, -, rfl⟩ := List.mem_map.1 hy
      exact Nat.cast_nonneg n
    · intro y hy
      obtain ⟨n, -, rfl⟩ := List.mem_map.1 hy
      exact Nat.cast_nonneg n
    · intro ld st b hb
      exact bandwidth_nonneg m none _ ld st b hm.kernels hm.measured hb
  have hcn : ∀ c ∈ cycles, 0 ≤ c.2 := by
    intro c hc
    rw [g2] at hc
    obtain ⟨x, hx, rfl⟩ := List.mem_map.1 hc
    exact (hnn _ (List.of_mem_zip hx).2).1
  have hp0 : 0 ≤ penalty := by
    rw [g3, zero_add]
    refine List.sum_nonneg fun y hy => ?_
    obtain ⟨x, hx, rfl⟩ := List.mem_map.1 hy
    exact (hnn _ hx).2
  have hlen : cycles.length = ls.length := by rw [g2]; simp [g1]
  obtain ⟨b1, b2, b3, b4⟩ := C24_total_bounds_each tComp tReg l0.overlap _ penalty ol nol hco h1 h2 (by
    intro l hl
    have := (List.of_mem_zip (a := l.1) (b := l.2) (by simpa using hl)).2
    obtain ⟨c, hc, e⟩ := List.mem_map.1 this
    rw [← e]
    exact hcn c hc) hp0
  cases hgl : cycles.getLast? with
  | none => rw [hgl] at h; cases h
  | some c =>
    rw [hgl] at h
    simp only [Option.map_some, Option.some.injEq, Prod.mk.injEq] at h
    obtain ⟨rfl, rfl⟩ := h
    have hne : ls ≠ [] := by
      rintro rfl
      rw [List.eq_nil_of_length_eq_zero hlen] at hgl
      cases hgl
    have hpos : 0 < ls.length := List.length_pos_iff.2 hne
    rw [List.getLast?_eq_getElem?] at hgl
    rw [hlen] at hgl
    have hk : ls.length - 1 < ts.length := by omega
    have hk' : ls.length - 1 < ls.length := by omega
    have hmem := List.mem_of_getElem? hgl
    refine ⟨b1, b2, hcn c hmem, ?_, ls[ls.length - 1], ts[ls.length - 1].2, ?_, by rw [hls]; simp; omega, ?_⟩
    · refine b3 (ls[ls.length - 1].overlap, c.2) ?_
      refine List.mem_of_getElem? (i := ls.length - 1) ?_
      rw [List.getElem?_zip_eq_some]
      simp [hgl, hk']
    · rw [hls, List.getLast?_cons]
      simp [List.getLast?_eq_getElem?, hk']
    · have := g4 (ls.length - 1) (ls[ls.length - 1]).base ts[ls.length - 1] (by simp [hk']) (by simp [hk])
      rw [hls]
      simp only [List.length_cons, Nat.add_sub_cancel]
      rw [show 1 + (ls.length - 1) = ls.length by omega] at this
      rw [this]
      rw [g2, List.getElem?_map, List.getElem?_zip_eq_some (z := ((ls[ls.length - 1]).base, ts[ls.length - 1])) |>.2
        ⟨by simp [hk'], by simp [hk]⟩] at hgl
      simp only [Option.map_some, Option.some.injEq] at hgl
      rw [← hgl]

theorem foldl_max_mem (y : ℚ) (ys : List ℚ) : ys.foldl max y ∈ y :: ys ∧ ∀ z ∈ y :: ys, z ≤ ys.foldl max y := by
  obtain ⟨h1, h2⟩ := foldl_max_ge ys y
  refine ⟨List.mem_cons.2 ((Perf.foldl_max_mem ys y).imp id id), fun z hz => ?_⟩
  rcases List.mem_cons.1 hz with rfl | hz
  · exact h1
  · exact h2 z hz

/-- The bandwidth of the ECM model is the largest one of the Roofline model within a NUMA domain. -/
theorem best_bandwidth (m : Mach) (hm : Sane m) (hc : Complete m) (l : Level) (hl : m.levels.getLast? = some l)
    (ld st b : ℚ) (hlen : 1 < m.levels.length) (h : bandwidth m none (m.levels.length - 1) ld st = .ok b) :
    (∀ c b', c ∈ counts m → bandwidth m (some c) (m.levels.length - 1) ld st = .ok b' → b' ≤ b) ∧
      ∃ c ∈ counts m, bandwidth m (some c) (m.levels.length - 1) ld st = .ok b := by
  have hl' : m.levels[m.levels.length - 1]? = some l := by rw [← List.getLast?_eq_getElem?, hl]
  have hlm := List.mem_of_getElem? hl'
  unfold bandwidth Machine.getBandwidth at *
  simp only [hl'] at h ⊢
  cases hk : Machine.selectKernel m.kernels ld.num st.num with
  | none => rw [hk] at h; cases h
  | some k =>
    obtain ⟨name, info⟩ := k
    have hkm := hm.kernels _ (selectKernel_mem _ _ _ _ hk)
    rw [hk] at h
    simp only at h ⊢
    cases hx : l.meas with
    | none => rw [hx] at h; cases h
    | some x =>
      obtain ⟨hnd, hrl⟩ := hc l x hl hx
      have hcn : counts m = x.cores.take l.maxCores := by
        unfold counts
        rw [hl]
        simp only [hx]
      rw [hx] at h
      simp only at h ⊢
      by_cases ht : 1 = x.threadsPerCore
      · rw [if_pos ht] at h
        simp only [if_pos ht]
        unfold Machine.factor at h ⊢
        have h0 : m.levels.length - 1 ≠ 0 := by omega
        rw [if_neg h0, if_neg hkm.1.ne'] at h
        simp only [if_neg h0, if_neg hkm.1.ne']
        generalize hf : (info.readBytes + 2 * info.writeBytes - info.rwBytes) / (info.readBytes + info.writeBytes) = f at h ⊢
        have hf0 : 0 ≤ f := by
          rw [← hf]
          simp only at hkm
          exact div_nonneg (by linarith [hkm.1, hkm.2]) hkm.1.le
        unfold Machine.measured at h ⊢
        simp only at h ⊢
        cases hr : x.results.lookup name with
        | none => rw [hr] at h; cases h
        | some r =>
          rw [hr] at h
          simp only at h ⊢
          have hlr := hrl _ _ hr
          cases htk : r.take l.maxCores with
          | nil => rw [htk] at h; cases h
          | cons y ys =>
            rw [htk] at h
            simp only [Except.ok.injEq] at h
            obtain ⟨hmem, hmax⟩ := foldl_max_mem y ys
            rw [← htk] at hmem hmax
            have at_k : ∀ k, k < l.maxCores → (hkc : k < x.cores.length) →
                x.cores[k] ∈ x.cores ∧ x.cores.idxOf x.cores[k] = k ∧ r[k]? = some (r[k]'(by omega)) := by
              intro k _ hkc
              refine ⟨List.getElem_mem _, ?_, by simp [hlr, hkc]⟩
              exact hnd.idxOf_getElem k hkc
            refine ⟨fun c b' hcm hb => ?_, ?_⟩
            · rw [hcn] at hcm
              obtain ⟨k, hkl, rfl⟩ := List.getElem_of_mem hcm
              rw [List.length_take] at hkl
              rw [List.getElem_take] at hb
              obtain ⟨a1, a2, a3⟩ := at_k k (by omega) (by omega)
              simp only [a1, if_true, a2, a3, Except.ok.injEq] at hb
              rw [← hb, ← h]
              refine mul_le_mul_of_nonneg_right (hmax _ ?_) hf0
              refine List.mem_of_getElem? (i := k) ?_
              rw [List.getElem?_take_of_lt (by omega), a3]
            · obtain ⟨k, hkl, hke⟩ := List.getElem_of_mem hmem
              rw [List.length_take] at hkl
              obtain ⟨a1, a2, a3⟩ := at_k k (by omega) (by omega)
              refine ⟨x.cores[k]'(by omega), ?_, ?_⟩
              · rw [hcn]
                refine List.mem_of_getElem? (i := k) ?_
                rw [List.getElem?_take_of_lt (by omega)]
                simp
              · rw [List.getElem_take] at hke
                simp only [a1, if_true, a2, a3, hke]
                rw [h]
      · rw [if_neg ht] at h
        cases h

/-- The time of the memory belongs to the largest limit. -/
theorem memory_limit (m : Mach) (hm : Sane m) (hck : 0 < m.clock) (hd : HalfDuplex m) (hcm : Complete m) (el elSize : Nat) (he : 0 < elSize)
    (hel : 0 < el) (hcl : m.clSize = el * elSize) (loads stores : List Nat) (tComp tReg t tm : ℚ) (h1 : 0 ≤ tComp) (h2 : 0 ≤ tReg)
    (h : times m elSize tComp tReg loads stores = some (t, tm)) :
    ∃ p, IsGreatest (memLimits m elSize loads stores) p ∧ (tm = 0 → p = ⊤) ∧ (tm ≠ 0 → p = ((m.clock / tm * el : ℚ) : WithTop ℚ)) := by
  obtain ⟨-, -, a3, -, l, pen, hl, hlen, hlt⟩ := times_spec m hm elSize tComp tReg h1 h2 loads stores t tm h
  obtain ⟨l', hl', -, hrate, hdup⟩ := hd
  have hll : l = l' := Option.some.inj (hl.symm.trans hl')
  subst hll
  have hdiv : m.clSize / elSize = el := by rw [hcl, Nat.mul_div_cancel _ he]
  unfold Transfer.levelTime at hlt
  cases hld : (nums loads)[m.levels.length - 1]? with
  | none => rw [hld] at hlt; cases hlt
  | some ld =>
    cases hst : (nums stores)[m.levels.length - 1]? with
    | none => rw [hld, hst] at hlt; cases hlt
    | some st =>
      rw [hld, hst, hrate] at hlt
      simp only [bind, Except.bind] at hlt
      cases hb : bandwidth m none (m.levels.length - 1) ld st with
      | error e => rw [hb] at hlt; cases hlt
      | ok b =>
        rw [hb] at hlt
        simp only [Transfer.memTime, hdup, if_true, hdiv] at hlt
        by_cases hb0 : b = 0
        · rw [if_pos hb0] at hlt
          cases hlt
        rw [if_neg hb0] at hlt
        simp only [Except.ok.injEq, Prod.mk.injEq] at hlt
        obtain ⟨htm, -⟩ := hlt
        have hb1 : 0 < b := lt_of_le_of_ne (bandwidth_nonneg m none _ ld st b hm.kernels hm.measured hb) (Ne.symm hb0)
        obtain ⟨g1, c, hcc, hbc⟩ := best_bandwidth m hm hcm l hl ld st b hlen hb
        have hld0 : 0 ≤ ld := by
          obtain ⟨n, -, rfl⟩ := List.mem_map.1 (List.mem_of_getElem? hld)
          exact Nat.cast_nonneg n
        have hst0 : 0 ≤ st := by
          obtain ⟨n, -, rfl⟩ := List.mem_map.1 (List.mem_of_getElem? hst)
          exact Nat.cast_nonneg n
        have helq : (0 : ℚ) < el := by exact_mod_cast hel
        have hesq : (0 : ℚ) < elSize := by exact_mod_cast he
        have hmem : ∀ c' b', bandwidth m (some c') (m.levels.length - 1) ld st = .ok b' →
            memLimit m elSize loads stores c' = some (Transfer.levelPerf m.clSize el ld st b') := by
          intro c' b' hb'
          unfold memLimit roofLevel
          rw [hld, hst, hdiv]
          simp only [hb', Option.map_some]
        have hmem' : ∀ c' p, memLimit m elSize loads stores c' = some p → ∃ b',
            bandwidth m (some c') (m.levels.length - 1) ld st = .ok b' ∧ p = Transfer.levelPerf m.clSize el ld st b' := by
          intro c' p hp
          unfold memLimit roofLevel at hp
          rw [hld, hst, hdiv] at hp
          simp only at hp
          cases hb' : bandwidth m (some c') (m.levels.length - 1) ld st with
          | error e => rw [hb'] at hp; cases hp
          | ok b' =>
            rw [hb'] at hp
            exact ⟨b', rfl, (Option.some.inj hp).symm⟩
        refine ⟨Transfer.levelPerf m.clSize el ld st b, ⟨⟨c, hcc, hmem c b hbc⟩, ?_⟩, ?_, ?_⟩
        · rintro p ⟨c', hc', hp⟩
          obtain ⟨b', hb', rfl⟩ := hmem' c' p hp
          have hle := g1 c' b' hc' hb'
          unfold Transfer.levelPerf
          simp only
          split
          · exact le_refl _
          · rw [WithTop.coe_le_coe]
            refine mul_le_mul_of_nonneg_right hle ?_
            positivity
        · intro h0
          rw [h0] at htm
          have : ld + st = 0 := by
            by_contra hne
            have hpos : 0 < ld + st := lt_of_le_of_ne (by positivity) (Ne.symm hne)
            have : 0 < (ld + st) * el * elSize * m.clock / b := by positivity
            linarith
          unfold Transfer.levelPerf
          simp only
          rw [if_pos]
          rw [← add_mul, this, zero_mul]
        · intro h0
          have hpos : 0 < ld + st := by
            rcases (add_nonneg hld0 hst0).eq_or_lt with e | e
            · rw [← e] at htm
              simp at htm
              exact absurd htm.symm h0
            · exact e
          have hclq : (m.clSize : ℚ) = el * elSize := by rw [hcl]; push_cast; ring
          unfold Transfer.levelPerf
          simp only
          rw [← add_mul, hclq, if_neg (by positivity), WithTop.coe_inj, ← htm]
          field_simp

end Verif.Limits
