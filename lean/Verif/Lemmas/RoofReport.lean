import Verif.Spec.RoofReport

/-!
Lemmas on the verdicts of the Roofline reports.
-/

namespace Verif.RoofReport

open Verif.Perf Verif.Transfer

theorem mapM_ok {α β ε : Type} (f : α → Except ε β) (l : List α) (h : ∀ a ∈ l, ∃ b, f a = .ok b) :
    ∃ bs, l.mapM f = .ok bs ∧ bs.length = l.length ∧ ∀ (i : Nat) a, l[i]? = some a → ∃ b, bs[i]? = some b ∧ f a = .ok b := by
  induction l with
  | nil => exact ⟨[], rfl, rfl, by simp⟩
  | cons a l ih =>
    obtain ⟨bs, h1, h2, h3⟩ := ih fun x hx => h x (by simp [hx])
    obtain ⟨b, hb⟩ := h a (by simp)
    refine ⟨b :: bs, by simp [List.mapM_cons, hb, h1, bind, Except.bind, pure, Except.pure], by simp [h2], ?_⟩
    rintro (_ | i) x hx
    · simp only [List.getElem?_cons_zero, Option.some.injEq] at hx
      subst hx
      exact ⟨b, rfl, hb⟩
    · exact h3 i x (by simpa using hx)

/-- The performance of a level with a bandwidth is not zero. -/
theorem levelPerf_pos (clSize el : Nat) (l s bw : ℚ) (hc : 0 < clSize) (he : 0 < el) (hl : 0 ≤ l) (hs : 0 ≤ s) (hb : 0 < bw) :
    0 < levelPerf clSize el l s bw := by
  unfold levelPerf
  simp only
  split
  · exact WithTop.coe_lt_top _
  · rename_i h
    have hc' : (0 : ℚ) < clSize := by exact_mod_cast hc
    have he' : (0 : ℚ) < el := by exact_mod_cast he
    have hpos : 0 < l * clSize + s * clSize := lt_of_le_of_ne (by positivity) (Ne.symm h)
    have : (0 : ℚ) < bw * (1 / ((l * clSize + s * clSize) / el)) := by positivity
    exact_mod_cast this

/-- A conversion of a finite performance. -/
theorem conv_fin (x : Input) (q : ℚ) (hs : 0 < x.elSize) (hq : q ≠ 0) :
    x.conv (q : WithTop ℚ) = .ok ⟨.fin q, x.clock / q * (x.clSize / x.elSize), x.clock / q, .fin (q * x.flops)⟩ := by
  simp [Input.conv, convPerf, hs.ne', hq, Val.scale]

theorem conv_top (x : Input) (hs : 0 < x.elSize) : ∃ c, x.conv ⊤ = .ok c ∧ c.itS = .inf ∧ (x.flops ≠ 0 → c.flopS = .inf) := by
  simp only [Input.conv, convPerf, if_neg hs.ne']
  refine ⟨_, rfl, rfl, fun h => ?_⟩
  simp [Val.scale, h]

theorem conv_ok (x : Input) (p : WithTop ℚ) (hs : 0 < x.elSize) (hp : 0 < p) : ∃ c, x.conv p = .ok c := by
  cases p with
  | top => exact (conv_top x hs).imp fun _ h => h.1
  | coe q =>
    have : q ≠ 0 := by
      rintro rfl
      exact lt_irrefl _ hp
    exact ⟨_, conv_fin x q hs this⟩

/-- The rows and their intensities. -/
def entries (x : Input) : List (Row × Val) :=
  (x.l1, l1Intensity (x.clSize / x.elSize) x.elSize x.reads x.writes) :: x.rows.map fun r => (r, levelIntensity x.clSize (x.clSize / x.elSize) r)

theorem bottlenecks_ok (x : Input) (ps : List (WithTop ℚ)) (hs : 0 < x.elSize) (hp : ∀ p ∈ ps, 0 < p) :
    ∃ bs, x.bottlenecks ps = .ok bs ∧ ∀ (i : Nat) p e, ps[i]? = some p → (entries x)[i]? = some e →
      ∃ c, x.conv p = .ok c ∧ bs[i]? = some ⟨c, e.1.name, e.1.kernel, e.2⟩ := by
  obtain ⟨bs, h1, -, h3⟩ := mapM_ok (fun e : WithTop ℚ × Row × Val => match x.conv e.1 with
    | .error err => .error err
    | .ok c => .ok (⟨c, e.2.1.name, e.2.1.kernel, e.2.2⟩ : Bottleneck)) (ps.zip (entries x)) fun e he => by
      obtain ⟨c, hc⟩ := conv_ok x e.1 hs (hp _ (List.of_mem_zip he).1)
      exact ⟨_, by rw [hc]⟩
  refine ⟨bs, h1, fun i p e hi he => ?_⟩
  obtain ⟨b, hb, hf⟩ := h3 i (p, e) (by simp [List.getElem?_zip_eq_some, hi, he])
  obtain ⟨c, hc⟩ := conv_ok x p hs (hp _ (List.mem_of_getElem? hi))
  simp only [hc, Except.ok.injEq] at hf
  exact ⟨c, hc, by rw [hb, hf]⟩

/-- The performance of the levels. -/
def perfs (x : Input) (n : Nat) : List (WithTop ℚ) :=
  ((x.l1.bw * (1 / (((x.reads + x.writes) * x.elSize : ℚ) / n)) : ℚ) : WithTop ℚ) :: x.rows.map fun r => levelPerf x.clSize n r.loads r.stores r.bw

theorem perfs_pos (x : Input) (n : Nat) (hv : Valid x) (hn : 0 < n) (hc : x.clSize = n * x.elSize) : ∀ p ∈ perfs x n, 0 < p := by
  intro p hp
  have hs : (0 : ℚ) < x.elSize := by exact_mod_cast hv.el
  have ha : (0 : ℚ) < (x.reads : ℚ) + x.writes := by exact_mod_cast hv.access
  have hn' : (0 : ℚ) < n := by exact_mod_cast hn
  have hb := hv.l1
  simp only [perfs, List.mem_cons, List.mem_map] at hp
  rcases hp with rfl | ⟨r, hr, rfl⟩
  · have : (0 : ℚ) < x.l1.bw * (1 / (((x.reads + x.writes) * x.elSize : ℚ) / n)) := by positivity
    exact_mod_cast this
  · obtain ⟨h1, h2, h3⟩ := hv.rows r hr
    exact levelPerf_pos _ _ _ _ _ (by rw [hc]; exact Nat.mul_pos hn hv.el) hn h1 h2 h3

theorem cacheAccess_ok (x : Input) (n : Nat) (hv : Valid x) (hn : 0 < n) (hc : x.clSize = n * x.elSize) :
    ∃ i p, cacheAccess x.clSize x.elSize x.reads x.writes x.l1.bw x.triples = .ok (perfs x n, i, p) ∧ (perfs x n)[i]? = some p ∧
      ∀ (j : Nat) q, (perfs x n)[j]? = some q → p ≤ q ∧ (j < i → p < q) := by
  have hs := hv.el
  have hmul : x.clSize / x.elSize = n := by rw [hc, Nat.mul_div_cancel _ hs]
  have hne : ((x.reads : ℚ) + x.writes) * x.elSize ≠ 0 := by
    have hs : (0 : ℚ) < x.elSize := by exact_mod_cast hv.el
    have ha : (0 : ℚ) < (x.reads : ℚ) + x.writes := by exact_mod_cast hv.access
    positivity
  unfold cacheAccess
  simp only [if_neg hs.ne', hmul, if_neg hn.ne', l1Perf, if_neg hne, Input.triples, List.map_map]
  have hfold := roofFold ((x.l1.bw * (1 / (((x.reads + x.writes) * x.elSize : ℚ) / n)) : ℚ) : WithTop ℚ)
    (x.rows.map fun r => levelPerf x.clSize n r.loads r.stores r.bw)
  simp only at hfold
  exact ⟨_, _, rfl, hfold.2.2.1, hfold.2.2.2⟩

theorem inUnit_conv (x : Input) (q : ℚ) (hv : Valid x) (hq : 0 < q) (u : PerfUnit) :
    ∃ c v, x.conv (q : WithTop ℚ) = .ok c ∧ c.itS = .fin q ∧ get c u = .fin v ∧ InUnit x.clock (iterationsPerCl x.clSize x.elSize 1) x.flops q u v := by
  have hs : (x.elSize : ℚ) ≠ 0 := by exact_mod_cast hv.el.ne'
  refine ⟨_, _, conv_fin x q hv.el hq.ne', rfl, (by cases u <;> rfl : get _ u = .fin (match u with
    | .itS => q
    | .cyCl => x.clock / q * (x.clSize / x.elSize)
    | .cyIt => x.clock / q
    | .flopS => q * x.flops)), ?_⟩
  cases u <;> simp only [InUnit, iterationsPerCl]
  · push_cast
    field_simp
  · field_simp
  · ring

theorem perCl_eq (x : Input) (n : Nat) (hv : Valid x) (hc : x.clSize = n * x.elSize) : iterationsPerCl x.clSize x.elSize 1 = n := by
  have hs : (x.elSize : ℚ) ≠ 0 := by exact_mod_cast hv.el.ne'
  unfold iterationsPerCl
  rw [hc]
  push_cast
  field_simp

/-- The performance of a level is the largest that it sustains. -/
theorem level_limit (x : Input) (n : Nat) (hv : Valid x) (hn : 0 < n) (hc : x.clSize = n * x.elSize) (r : Row) (hr : r ∈ x.rows) (q : ℚ) :
    Sustains (q : WithTop ℚ) (demand x r) ↔ (q : WithTop ℚ) ≤ levelPerf x.clSize n r.loads r.stores r.bw := by
  obtain ⟨h1, h2, h3⟩ := hv.rows r hr
  have hsat := levelPerf_saturates n x.elSize r.loads r.stores r.bw hn hv.el
  rw [← hc] at hsat
  have hd : (demand x r).1 = (r.loads + r.stores) * x.elSize := by
    have hn' : (n : ℚ) ≠ 0 := by exact_mod_cast hn.ne'
    unfold demand
    rw [perCl_eq x n hv hc, hc]
    push_cast
    field_simp
  have hd0 : 0 ≤ (demand x r).1 := by
    rw [hd]
    positivity
  constructor
  · intro h
    have h : q * (demand x r).1 ≤ r.bw := h
    have hsat : Saturates _ (demand x r) := hsat
    cases hp : levelPerf x.clSize n r.loads r.stores r.bw with
    | top => exact le_top
    | coe b =>
      rw [hp] at hsat
      have hsat : b * (demand x r).1 = r.bw := hsat
      have hpos : 0 < (demand x r).1 := by
        refine lt_of_le_of_ne hd0 fun h0 => ?_
        rw [← h0, mul_zero] at hsat
        exact h3.ne hsat
      rw [WithTop.coe_le_coe]
      exact le_of_mul_le_mul_right (by rw [hsat]; exact h) hpos
  · intro h
    exact sustains_of_le _ _ (demand x r) hd0 h hsat h3.le

/-- A performance that is the limit of a level saturates it, and no larger one does. -/
theorem level_saturates (x : Input) (n : Nat) (hv : Valid x) (hn : 0 < n) (hc : x.clSize = n * x.elSize) (r : Row) (hr : r ∈ x.rows) (q : ℚ) :
    Saturates (q : WithTop ℚ) (demand x r) ↔ (q : WithTop ℚ) = levelPerf x.clSize n r.loads r.stores r.bw := by
  have hsat := levelPerf_saturates n x.elSize r.loads r.stores r.bw hn hv.el
  rw [← hc] at hsat
  have hsat : Saturates _ (demand x r) := hsat
  have h3 := (hv.rows r hr).2.2
  constructor
  · intro h
    have h : q * (demand x r).1 = r.bw := h
    cases hp : levelPerf x.clSize n r.loads r.stores r.bw with
    | top =>
      rw [hp] at hsat
      have hsat : (demand x r).1 = 0 := hsat
      rw [hsat, mul_zero] at h
      exact absurd h h3.ne
    | coe b =>
      rw [hp] at hsat
      have hsat : b * (demand x r).1 = r.bw := hsat
      have h0 : (demand x r).1 ≠ 0 := by
        intro h0
        rw [h0, mul_zero] at hsat
        exact h3.ne hsat
      rw [WithTop.coe_inj]
      exact mul_right_cancel₀ h0 (h.trans hsat.symm)
  · intro h
    rw [h]
    exact hsat

/-- The intensity of a saturated level. -/
theorem intensity_spec (x : Input) (n : Nat) (hv : Valid x) (hn : 0 < n) (hc : x.clSize = n * x.elSize) (r : Row) (q : ℚ)
    (h : (q : WithTop ℚ) = levelPerf x.clSize n r.loads r.stores r.bw) :
    ∃ a, levelIntensity x.clSize n r = .fin a ∧ a * (demand x r).1 = 1 := by
  unfold levelPerf at h
  unfold levelIntensity
  simp only at h ⊢
  split at h
  · simp at h
  · rename_i h0
    rw [if_neg h0]
    refine ⟨_, rfl, ?_⟩
    have hn' : (n : ℚ) ≠ 0 := by exact_mod_cast hn.ne'
    unfold demand
    rw [perCl_eq x n hv hc]
    have : (r.loads + r.stores) * (x.clSize : ℚ) = r.loads * x.clSize + r.stores * x.clSize := by ring
    rw [this, one_div_div, div_mul_div_cancel₀ h0, div_self hn']

/-- The same for the transfers between CPU and L1. -/
theorem l1_limit (x : Input) (n : Nat) (hv : Valid x) (hn : 0 < n) (hc : x.clSize = n * x.elSize) (q : ℚ) :
    (Sustains (q : WithTop ℚ) (demandL1 x) ↔ q ≤ x.l1.bw * (1 / (((x.reads + x.writes) * x.elSize : ℚ) / n))) ∧
    (Saturates (q : WithTop ℚ) (demandL1 x) ↔ q = x.l1.bw * (1 / (((x.reads + x.writes) * x.elSize : ℚ) / n))) ∧
    ∃ a, l1Intensity n x.elSize x.reads x.writes = .fin a ∧ a * (demandL1 x).1 = 1 := by
  have hs : (0 : ℚ) < x.elSize := by exact_mod_cast hv.el
  have ha : (0 : ℚ) < (x.reads : ℚ) + x.writes := by exact_mod_cast hv.access
  have hn' : (0 : ℚ) < n := by exact_mod_cast hn
  have hd : (demandL1 x).1 = ((x.reads + x.writes) * x.elSize : ℚ) / n := by
    unfold demandL1
    rw [perCl_eq x n hv hc]
    push_cast
    rfl
  have hd0 : 0 < (demandL1 x).1 := by
    rw [hd]
    positivity
  rw [← hd, mul_one_div]
  refine ⟨?_, ?_, ?_⟩
  · rw [le_div_iff₀ hd0]
    exact Iff.rfl
  · rw [eq_div_iff hd0.ne']
    exact Iff.rfl
  · refine ⟨_, rfl, ?_⟩
    rw [hd]
    push_cast
    field_simp

/-- All levels: what they sustain and what saturates them. -/
theorem all_limits (x : Input) (n : Nat) (hv : Valid x) (hn : 0 < n) (hc : x.clSize = n * x.elSize) (i : Nat) (d : ℚ × ℚ) (p : WithTop ℚ)
    (hd : (demandL1 x :: x.rows.map (demand x))[i]? = some d) (hp : (perfs x n)[i]? = some p) (q : ℚ) :
    (Sustains (q : WithTop ℚ) d ↔ (q : WithTop ℚ) ≤ p) ∧ (Saturates (q : WithTop ℚ) d ↔ (q : WithTop ℚ) = p) ∧
    ((q : WithTop ℚ) = p → ∃ r a, (x.l1 :: x.rows)[i]? = some r ∧ (entries x)[i]? = some (r, .fin a) ∧ a * d.1 = 1) := by
  have hmul : x.clSize / x.elSize = n := by rw [hc, Nat.mul_div_cancel _ hv.el]
  cases i with
  | zero =>
    simp only [List.getElem?_cons_zero, Option.some.injEq] at hd
    simp only [perfs, List.getElem?_cons_zero, Option.some.injEq] at hp
    subst hd hp
    obtain ⟨h1, h2, a, h3, h4⟩ := l1_limit x n hv hn hc q
    rw [WithTop.coe_le_coe, WithTop.coe_inj]
    exact ⟨h1, h2, fun _ => ⟨x.l1, a, rfl, by simp [entries, hmul, h3], h4⟩⟩
  | succ i =>
    simp only [List.getElem?_cons_succ, List.getElem?_map, Option.map_eq_some_iff] at hd
    simp only [perfs, List.getElem?_cons_succ, List.getElem?_map, Option.map_eq_some_iff] at hp
    obtain ⟨r, hr, rfl⟩ := hd
    obtain ⟨r', hr', rfl⟩ := hp
    rw [hr, Option.some.injEq] at hr'
    subst hr'
    have hm : r ∈ x.rows := List.mem_of_getElem? hr
    refine ⟨level_limit x n hv hn hc r hm q, level_saturates x n hv hn hc r hm q, fun h => ?_⟩
    obtain ⟨a, h3, h4⟩ := intensity_spec x n hv hn hc r q h
    exact ⟨r, a, by simpa using hr, by simp [entries, hr, hmul, h3], h4⟩

end Verif.RoofReport
