import Verif.Props.Bench

/-!
C61: number of measurement runs.
-/

namespace Verif.Bench

section
variable {N D P R : Type} [DecidableEq N] [DecidableEq D] [DecidableEq P] [DecidableEq R]

/-- A list of runs that measures all events needs at least `n` runs. -/
def NeedsRuns (opts : D → Gen R) (events : List (Ev N D P)) (n : Nat) : Prop :=
  ∀ runs plan, ValidPlan opts events runs plan → n ≤ runs.length

omit [DecidableEq N] [DecidableEq D] [DecidableEq P] [DecidableEq R] in
theorem filter_flatten_le (q : List (List (Ev N D P × R))) (p : Ev N D P × R → Bool) (m : Nat)
    (h : ∀ run ∈ q, (run.filter p).length ≤ m) : (q.flatten.filter p).length ≤ q.length * m := by
  induction q with
  | nil => simp
  | cons run q ih =>
    have h1 := h run (by simp)
    have h2 := ih (fun r hr => h r (by simp [hr]))
    simp only [List.flatten_cons, List.filter_append, List.length_append, List.length_cons, Nat.add_mul, Nat.one_mul]
    omega

omit [DecidableEq N] [DecidableEq D] [DecidableEq P] [DecidableEq R] in
theorem filter_flatten_ge (q : List (List (Ev N D P × R))) (p : Ev N D P × R → Bool) (m : Nat)
    (h : ∀ run ∈ q, m ≤ (run.filter p).length) : q.length * m ≤ (q.flatten.filter p).length := by
  induction q with
  | nil => simp
  | cons run q ih =>
    have h1 := h run (by simp)
    have h2 := ih (fun r hr => h r (by simp [hr]))
    simp only [List.flatten_cons, List.filter_append, List.length_append, List.length_cons, Nat.add_mul, Nat.one_mul]
    omega

/-- C61, partial: if any two events either have the same possible registers or none in common, the planner uses the
least possible number of runs. Other combinations of registers are missing (`C61_negation`). -/
theorem C61_minimal_partial (opts : D → Gen R) (events : List (Ev N D P)) (fuel : Nat)
    (runs : List (List (N × R × P))) (h : buildRuns opts events fuel = some (.ok runs))
    (hopt : ∀ e ∈ events, ∀ e' ∈ events, ∀ r ∈ (opts e.regs).vals, r ∈ (opts e'.regs).vals →
      ∀ s, s ∈ (opts e.regs).vals ↔ s ∈ (opts e'.regs).vals) :
    NeedsRuns opts events runs.length := by
  intro runs' q hq
  obtain ⟨plan, sched, hi, hl, rfl⟩ := buildRuns_inv opts events fuel runs h
  have hperm := planInv_perm _ _ _ _ hi hl
  obtain ⟨rfl, hq1, hq2, hq3⟩ := hq
  simp only [List.length_map]
  rcases List.eq_nil_or_concat plan with rfl | ⟨init, last, hplan⟩
  · simp
  rw [List.concat_eq_append] at hplan
  obtain ⟨x, xs, hlast⟩ := List.exists_cons_of_ne_nil (hi.regs last (by simp [hplan])).2
  have hxl : x ∈ last := by simp [hlast]
  have hxp : x ∈ plan.flatten := by simp [hplan, hxl]
  have hevents : ∀ y ∈ plan.flatten, y.1 ∈ events := by
    intro y hy
    have : y.1 ∈ sched := by rw [hi.all]; exact List.mem_map_of_mem hy
    exact ((mem_dedupe _ _ _).1 (hi.sub _ this)).1
  have hqevents : ∀ y ∈ q.flatten, y.1 ∈ events := by
    intro y hy
    by_contra hne
    have := hq1 y.1
    rw [if_neg hne, List.count_eq_zero] at this
    exact this (List.mem_map_of_mem hy)
  have hx0 := hi.option x hxp
  -- the registers of the class of `x`
  let S := dedupe [] (opts x.1.regs).vals
  have hS : ∀ r, r ∈ S ↔ r ∈ (opts x.1.regs).vals := fun r => by simp [S, mem_dedupe]
  let p' : Ev N D P → Bool := fun e => decide (x.2 ∈ (opts e.regs).vals)
  let p : Ev N D P × R → Bool := fun y => p' y.1
  have hcls : ∀ e ∈ events, p' e = true → ∀ s, s ∈ (opts e.regs).vals ↔ s ∈ S := by
    intro e he hp s
    rw [hS]
    exact hopt e he x.1 (hevents x hxp) x.2 (by simpa [p'] using hp) hx0 s
  -- earlier runs use all registers of the class
  have hge : ∀ run ∈ init, S.length ≤ (run.filter p).length := by
    intro run hrun
    have hgreedy := hi.greedy
    rw [hplan, List.pairwise_append] at hgreedy
    have hall := hgreedy.2.2 run hrun last (by simp) x hxl
    have hsub : S.Subperm ((run.filter p).map (·.2)) := by
      apply List.Nodup.subperm (nodup_dedupe _ _)
      intro r hr
      rw [hS] at hr
      obtain ⟨y, hy, rfl⟩ := List.mem_map.1 (hall r hr)
      have hyp : y ∈ plan.flatten := by
        rw [hplan]; simp only [List.flatten_append, List.mem_append, List.mem_flatten]
        exact Or.inl ⟨run, hrun, hy⟩
      apply List.mem_map_of_mem
      rw [List.mem_filter]
      refine ⟨hy, ?_⟩
      have := (hopt y.1 (hevents y hyp) x.1 (hevents x hxp) y.2 (hi.option y hyp) hr x.2).2 hx0
      simpa [p, p'] using this
    simpa using hsub.length_le
  -- no run of the other plan has more events of the class
  have hle : ∀ run ∈ q, (run.filter p).length ≤ S.length := by
    intro run hrun
    have hsub : ((run.filter p).map (·.2)).Subperm S := by
      apply List.Nodup.subperm
      · exact (hq3 run hrun).sublist (List.filter_sublist.map _)
      · intro r hr
        obtain ⟨y, hy, rfl⟩ := List.mem_map.1 hr
        rw [List.mem_filter] at hy
        have hyq : y ∈ q.flatten := List.mem_flatten.2 ⟨run, hrun, hy.1⟩
        exact (hcls y.1 (hqevents y hyq) hy.2 y.2).1 (hq2 y hyq)
    simpa using hsub.length_le
  have h1 := filter_flatten_ge init p _ hge
  have h2 := filter_flatten_le q p _ hle
  have hsame : (q.flatten.filter p).length = (plan.flatten.filter p).length := by
    have hp : (q.flatten.map (·.1)).Perm (plan.flatten.map (·.1)) := by
      rw [List.perm_iff_count]
      intro e
      rw [hq1 e, ← hi.all, hperm.count_eq]
      by_cases he : e ∈ events
      · rw [if_pos he]
        exact (List.count_eq_one_of_mem (nodup_dedupe _ _) ((mem_dedupe _ _ _).2 ⟨he, by simp⟩)).symm
      · rw [if_neg he]
        symm
        rw [List.count_eq_zero]
        intro hm
        exact he ((mem_dedupe _ _ _).1 hm).1
    have := hp.countP_eq p'
    rw [List.countP_map, List.countP_map, List.countP_eq_length_filter, List.countP_eq_length_filter] at this
    exact this
  have h3 : (plan.flatten.filter p).length ≥ init.length * S.length + 1 := by
    rw [hplan, List.flatten_append, List.filter_append, List.length_append]
    have : 0 < (([last] : List (List (Ev N D P × R))).flatten.filter p).length := by
      apply List.length_pos_iff.2
      apply List.ne_nil_of_mem (a := x)
      rw [List.mem_filter]
      exact ⟨by simpa using hxl, by simpa [p, p'] using hx0⟩
    omega
  have h4 : init.length * S.length < q.length * S.length := by omega
  have h5 := Nat.lt_of_mul_lt_mul_right h4
  rw [hplan]
  simp
  omega

end

/-- C61 does not hold: event 0 may use registers 0 and 1 and takes 0, which is the only one of event 1. The planner
makes two runs, one is enough. -/
theorem C61_negation : ∃ (events : List (Ev Nat (List Nat) Unit)) (runs runs' : List (List (Nat × Nat × Unit)))
    (plan : List (List (Ev Nat (List Nat) Unit × Nat))),
    buildRuns (fun d => ⟨d, false⟩) events events.length = some (.ok runs) ∧
    ValidPlan (fun d => ⟨d, false⟩) events runs' plan ∧ runs'.length < runs.length := by
  refine ⟨[⟨0, [0, 1], ()⟩, ⟨1, [0], ()⟩], [[(0, 0, ())], [(1, 0, ())]], [[(0, 1, ()), (1, 0, ())]],
    [[(⟨0, [0, 1], ()⟩, 1), (⟨1, [0], ()⟩, 0)]], by rfl, ⟨by rfl, ?_, by decide, by decide⟩, by decide⟩
  intro e
  simp only [List.flatten_cons, List.flatten_nil, List.append_nil, List.map_cons, List.map_nil, List.count_cons,
    List.count_nil, List.mem_cons, List.not_mem_nil, or_false, beq_iff_eq, eq_comm (b := e)]
  by_cases h1 : e = ⟨0, [0, 1], ()⟩
  · subst h1; decide
  · by_cases h2 : e = ⟨1, [0], ()⟩
    · subst h2; decide
    · simp [h1, h2]

/-- Three events on registers 0 and 1 and one on register 7: two runs. -/
example : ∃ events : List (Ev Nat (List Nat) Unit), events.length = 4 ∧
    (∀ e ∈ events, ∀ e' ∈ events, ∀ r ∈ e.regs, r ∈ e'.regs → e.regs = e'.regs) ∧
    (buildRuns (fun d => (⟨d, false⟩ : Gen Nat)) events 4).map (Except.toOption) =
      some (some [[(0, 0, ()), (1, 1, ()), (3, 7, ())], [(2, 0, ())]]) :=
  ⟨[⟨0, [0, 1], ()⟩, ⟨1, [0, 1], ()⟩, ⟨2, [0, 1], ()⟩, ⟨3, [7], ()⟩], by decide, by decide, by decide +kernel⟩

end Verif.Bench
