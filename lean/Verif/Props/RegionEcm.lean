import Verif.Lemmas.RegionEcm

/-!
Property C142: the stand-alone benchmark gives the same results as the integrated one for the same measurements. Model:
`Verif.RegionEcm`, `Verif.Measure`, `Verif.PhenoEcm`; specification: `Spec/RegionEcm.lean`.
-/

namespace Verif.RegionEcm

open Verif.Bench Verif.Transfer Verif.Measure

variable {N D P R S : Type} [DecidableEq N] [DecidableEq D] [DecidableEq P] [DecidableEq R] [DecidableEq S]

/-- The full claim for the phenomenological ECM model: whatever the integrated benchmark finds, the stand-alone benchmark
finds as well if all runs measure the same. -/
def C142Claim (plain : P) (opts : D → Gen R) (count : Nat → N × R × P → ℚ) (event : S → Ev N D P) (ms : Metrics S)
    (clSize clock total : ℚ) (hierarchy : List Level) (bw : ℚ → ℚ → Except String ℚ) : Prop :=
  ∀ e, integrated opts count event ms (symbols ms.tOL ms.tData ms.levels).length clSize clock total hierarchy bw = some (.ok e) →
    alone plain opts count event ms (symbols ms.tOL ms.tData ms.levels.dropLast).length clSize clock total hierarchy bw = some (.ok e)

/-- C142 for machine files whose metrics are chained and have the entry `accesses`, with events that have different names
and no parameters. Missing: see the negations. -/
theorem C142_ecm_partial (plain : P) (opts : D → Gen R) (count : Nat → N × R × P → ℚ) (val : N → P → ℚ) (hc : Repeatable count val)
    (event : S → Ev N D P) (ms : Metrics S) (hch : Chained ms.levels)
    (ho : ∀ s ∈ symbols ms.tOL ms.tData ms.levels, (opts (event s).regs).raises = false ∧ (opts (event s).regs).vals ≠ [])
    (hn : ∀ s ∈ symbols ms.tOL ms.tData ms.levels, ∀ t ∈ symbols ms.tOL ms.tData ms.levels, (event s).name = (event t).name → event s = event t)
    (hp : ∀ s ∈ symbols ms.tOL ms.tData ms.levels, (event s).params = plain)
    (clSize clock total : ℚ) (hierarchy : List Level) (bw : ℚ → ℚ → Except String ℚ) :
    C142Claim plain opts count event ms clSize clock total hierarchy bw := by
  obtain ⟨a, b, c, d, hl, h1, h2, h3, h4, h5, h6, h7⟩ := hch
  have hsub : ∀ s ∈ symbols ms.tOL ms.tData ms.levels.dropLast, s ∈ symbols ms.tOL ms.tData ms.levels := by
    intro s hs
    unfold symbols at hs ⊢
    rw [List.mem_dedup, List.mem_append] at hs ⊢
    refine hs.imp_right fun hs => ?_
    obtain ⟨x, hx, hs⟩ := List.mem_flatMap.1 hs
    exact List.mem_flatMap.2 ⟨x, List.mem_of_mem_dropLast hx, hs⟩
  obtain ⟨out, ho1, ho2⟩ := counters_values opts count val hc event _ ho hn
  obtain ⟨out', ho1', ho2'⟩ := counters_values opts count val hc event _ (fun s hs => ho s (hsub s hs))
    (fun s hs t ht => hn s (hsub s hs) t (hsub t ht))
  have hcp := counters_plain plain opts count ((symbols ms.tOL ms.tData ms.levels.dropLast).map fun s => (s, event s))
    (symbols ms.tOL ms.tData ms.levels.dropLast).length (by
      intro x hx
      obtain ⟨s, hs, rfl⟩ := List.mem_map.1 hx
      exact hp s (hsub s hs))
  -- both evaluate metrics alike
  have hv : ∀ (levels : List (String × List (String × Metric S))) (o : List (S × ℚ)),
      (∀ s ∈ symbols ms.tOL ms.tData levels, get s o = some (val (event s).name (event s).params)) → ∀ l k,
      (metricOf levels l k).bind (Metric.eval o) =
        (metricOf levels l k).bind fun m => m.value (m.syms.map fun s => val (event s).name (event s).params) := by
    intro levels o h l k
    cases hm : metricOf levels l k with
    | none => rfl
    | some m =>
      obtain ⟨x, hx, y, hy, rfl⟩ := mem_levels levels l k m hm
      refine eval_values event val _ o fun s hs => h s ?_
      unfold symbols
      rw [List.mem_dedup, List.mem_append]
      exact Or.inr (List.mem_flatMap.2 ⟨x, hx, List.mem_flatMap.2 ⟨y, hy, hs⟩⟩)
  have ht : ∀ (levels : List (String × List (String × Metric S))) (o : List (S × ℚ)),
      (∀ s ∈ symbols ms.tOL ms.tData levels, get s o = some (val (event s).name (event s).params)) →
      ms.tOL.eval o = ms.tOL.value (ms.tOL.syms.map fun s => val (event s).name (event s).params) := by
    intro levels o h
    refine eval_values event val _ o fun s hs => h s ?_
    unfold symbols
    simp [hs]
  intro e he
  unfold integrated at he
  unfold alone
  rw [ho1] at he
  rw [hcp, ho1']
  simp only [Option.map_some, Option.some.injEq, hv _ _ ho2, ht _ _ ho2] at he
  simp only [Option.map_some, Option.some.injEq, hv _ _ ho2', ht _ _ ho2']
  generalize ms.tOL.value (ms.tOL.syms.map fun s => val (event s).name (event s).params) = tv at he ⊢
  cases tv with
  | none => exact he
  | some tv =>
    simp only at he ⊢
    rw [hl] at he ⊢
    generalize (fun m : Metric S => m.value (m.syms.map fun s => val (event s).name (event s).params)) = F at he ⊢
    simp only [PhenoEcm.ecm, ecm, PhenoEcm.value, metricOf, List.dropLast, List.lookup_cons, beq_self_eq_true,
      show ("L2" == "L1") = false by decide, show ("L3" == "L1") = false by decide, show ("L3" == "L2") = false by decide,
      show ("MEM" == "L1") = false by decide, show ("MEM" == "L2") = false by decide, show ("MEM" == "L3") = false by decide,
      Option.bind_some, h1, h2, h3, h4, h5, h6, h7, bind, Except.bind] at he ⊢
    generalize (List.lookup "loads" a).bind F = x1 at he ⊢
    generalize (List.lookup "stores" a).bind F = x2 at he
    generalize (List.lookup "loads" b).bind F = x3 at he ⊢
    generalize (List.lookup "stores" b).bind F = x4 at he ⊢
    generalize (List.lookup "loads" c).bind F = x5 at he ⊢
    generalize (List.lookup "stores" c).bind F = x6 at he ⊢
    generalize (List.lookup "loads" d).bind F = x7 at he ⊢
    generalize (List.lookup "stores" d).bind F = x8 at he ⊢
    by_cases h0 : total = 0
    · rw [if_pos h0] at he
      cases he
    rw [if_neg h0] at he ⊢
    rcases x1 with _ | x1
    · cases he
    rcases x2 with _ | x2
    · cases he
    rcases x7 with _ | x7
    · cases he
    rcases x8 with _ | x8
    · cases he
    simp only [pure, Except.pure] at he ⊢
    cases hb : bw x7 x8 with
    | error x => rw [hb] at he; cases he
    | ok bv =>
      rw [hb] at he
      rcases x3 with _ | x3
      · cases he
      rcases x4 with _ | x4
      · cases he
      simp only at he ⊢
      cases hr1 : PhenoEcm.rateOf hierarchy 1 with
      | error x => rw [hr1] at he; cases he
      | ok r1 =>
        rw [hr1] at he
        rcases x5 with _ | x5
        · cases he
        rcases x6 with _ | x6
        · cases he
        simp only at he ⊢
        cases hr2 : PhenoEcm.rateOf hierarchy 2 with
        | error x => rw [hr2] at he; cases he
        | ok r2 =>
          rw [hr2] at he
          exact he

/-- C142: numbers that are calculated from the runtime are the same if the steps of all loops fit into their ranges. Missing:
other steps, see `C142_negation_steps`. -/
theorem C142_numbers_partial (loops : List Iteration.Loop) (infos : List Standalone.LoopInfo) (hs : SameLoops loops infos)
    (hd : ∀ l ∈ loops, l.incr ≠ 0 ∧ l.incr ∣ l.stop - l.start) (hne : loops ≠ []) (size : Nat) (sizes : List Nat)
    (clSize timePer clock repetitions : ℚ) (flops : Nat) (gbytes : Option ℚ) :
    ∃ (n : ℚ) (n' : Int) (bytes : Int) (bytes' : ℚ), iterationsPerRepetition loops = some n ∧
      Standalone.iterationsPerRepetition infos = .ok n' ∧
      PhenoEcm.bytesPerIteration (size :: sizes) (loops.map (·.incr)) = some bytes ∧
      regionBytes size (infos.map (·.step)) = some bytes' ∧
      numbers clSize bytes' n' timePer clock repetitions flops gbytes =
        PhenoEcm.numbers clSize bytes n timePer clock repetitions flops gbytes := by
  obtain ⟨n, h1, h2⟩ : ∃ n : Int, iterationsPerRepetition loops = some (n : ℚ) ∧ Standalone.iterationsPerRepetition infos = .ok n := by
    clear hne
    induction hs with
    | nil => exact ⟨1, by simp [iterationsPerRepetition], rfl⟩
    | cons h _ ih =>
      rename_i l i ls is _
      obtain ⟨g1, g2, g3⟩ := h
      obtain ⟨n, e1, e2⟩ := ih fun x hx => hd x (List.mem_cons_of_mem _ hx)
      obtain ⟨h0, q, hq⟩ := hd l (by simp)
      have h0' : (l.incr : ℚ) ≠ 0 := by exact_mod_cast h0
      have hdiv : ((l.stop - l.start : Int) : ℚ) / l.incr = (q : ℚ) := by
        rw [hq]
        push_cast
        field_simp
      refine ⟨q * n, ?_, ?_⟩
      · simp only [iterationsPerRepetition, if_neg h0, e1, bind, Option.bind, pure, hdiv]
        push_cast
        rfl
      · have : (i.stop - i.start) / i.step = (q : ℚ) := by
          rw [g1, g2, g3, ← hdiv]
          push_cast
          rfl
        simp only [Standalone.iterationsPerRepetition, g3, if_neg h0', e2, bind, Except.bind]
        rw [← g3, this, Int.floor_intCast]
  obtain ⟨l, hl⟩ : ∃ l, loops.getLast? = some l := by
    cases h : loops.getLast? with
    | none => exact absurd (List.getLast?_eq_none_iff.1 h) hne
    | some l => exact ⟨l, rfl⟩
  obtain ⟨i, hi, hil⟩ : ∃ i, infos.getLast? = some i ∧ i.step = (l.incr : ℚ) := by
    have hr := List.rel_reverse hs
    rw [List.getLast?_eq_head?_reverse] at hl
    simp only [List.getLast?_eq_head?_reverse]
    generalize loops.reverse = x at hr hl
    generalize infos.reverse = y at hr
    revert hl
    cases hr with
    | nil => simp
    | cons h _ =>
      intro hl
      simp only [List.head?_cons, Option.some.injEq] at hl
      subst hl
      exact ⟨_, rfl, h.2.2⟩
  refine ⟨n, n, size * l.incr, size * l.incr, h1, h2, ?_, ?_, ?_⟩
  · simp [PhenoEcm.bytesPerIteration, hl]
  · simp [regionBytes, hi, hil]
  · push_cast
    rfl

/-! ### Witnesses -/

/-- A metric that is one counter. -/
def one (s : Nat) : Metric Nat := ⟨[s], fun v => v.head?⟩

/-- Metrics as in `SkylakeSP_Gold-5122.yml`: loads, stores, misses and evicts of each level; `more` are further ones of the
first level. -/
def wMetrics (more : List (String × Metric Nat)) : Metrics Nat :=
  ⟨one 0, one 1, [("L1", more ++ [("loads", one 1), ("stores", one 2), ("misses", one 3), ("evicts", one 4)]),
    ("L2", [("loads", one 3), ("stores", one 4), ("misses", one 5), ("evicts", one 6)]),
    ("L3", [("loads", one 5), ("stores", one 6), ("misses", one 7), ("evicts", one 8)]),
    ("MEM", [("loads", one 7), ("stores", one 8)])]⟩

/-- Each symbol is an event of its own, with four registers; `params` are its parameters. -/
def wEvent (params : Nat) (s : Nat) : Ev Nat (List Nat) Nat := ⟨s, [0, 1, 2, 3], if s = 3 then params else 0⟩

def wOpts (d : List Nat) : Gen Nat := ⟨d, false⟩
def wCount (_ : Nat) (e : Nat × Nat × Nat) : ℚ := 100 * (e.1 + 1)
def wLevels : List Level := [⟨"L1", .text, "", none, none⟩, ⟨"L2", .perCycle 64, "half-duplex", none, none⟩,
  ⟨"L3", .perCycle 32, "half-duplex", none, none⟩, ⟨"MEM", .memory, "half-duplex", none, none⟩]

def wIntegrated (params : Nat) (more : List (String × Metric Nat)) : Option (Except String PhenoEcm.Ecm) :=
  integrated wOpts wCount (wEvent params) (wMetrics more) 9 64 2000 100 wLevels (fun _ _ => .ok 8000)
def wAlone (params : Nat) (more : List (String × Metric Nat)) : Option (Except String PhenoEcm.Ecm) :=
  alone 0 wOpts wCount (wEvent params) (wMetrics more) 9 64 2000 100 wLevels (fun _ _ => .ok 8000)

example : C142Claim 0 wOpts wCount (wEvent 0) (wMetrics [("accesses", one 1)]) 64 2000 100 wLevels (fun _ _ => .ok 8000) := by
  refine C142_ecm_partial 0 wOpts wCount (fun n _ => 100 * (n + 1)) (fun _ _ _ _ => rfl) (wEvent 0) _
    ⟨_, _, _, _, rfl, rfl, rfl, rfl, rfl, rfl, rfl, rfl⟩ ?_ ?_ ?_ 64 2000 100 wLevels _
  · intro s _
    exact ⟨rfl, by simp [wOpts, wEvent]⟩
  · intro s _ t _ h
    simp only [wEvent] at h
    rw [h]
  · intro s _
    simp [wEvent]

/-- The times of a result, if there are some. -/
def times : Option (Except String PhenoEcm.Ecm) → List ℚ
  | some (.ok e) => [e.tOL, e.tnOL, e.tL1L2, e.tL2L3, e.tMEM]
  | _ => []

/-- The exception of a result. -/
def failure : Option (Except String PhenoEcm.Ecm) → Option String
  | some (.error x) => some x
  | _ => none

example : times (wIntegrated 0 [("accesses", one 1)]) = [1, 1, 9, 26, 272] ∧
    times (wAlone 0 [("accesses", one 1)]) = [1, 1, 9, 26, 272] := by decide +kernel

/-- C142 fails for machine files without `accesses` of the first level, which none of those that come with kerncraft has. -/
theorem C142_negation_accesses : times (wIntegrated 0 []) = [1, 1, 9, 26, 272] ∧ failure (wAlone 0 []) = some "KeyError" := by
  decide +kernel

/-- C142 fails for counters with parameters: the stand-alone benchmark does not find their values. -/
theorem C142_negation_parameters : times (wIntegrated 7 [("accesses", one 1)]) = [1, 1, 9, 26, 272] ∧
    times (wAlone 7 [("accesses", one 1)]) = [] := by decide +kernel

/-- A further form of it: symbol 1 asks for an event with parameters, gets the value of the same event without them, and
there is no exception. -/
theorem C142_negation_foreign :
    Measure.counters wOpts (fun _ e => 100 * (e.2.2 + 1)) [(0, ⟨0, [0], 0⟩), (1, (⟨0, [0, 1], 7⟩ : Ev Nat (List Nat) Nat))] 2 =
      some (.ok [(0, 100), (1, 800)]) ∧
    counters 0 wOpts (fun _ e => 100 * (e.2.2 + 1)) [(0, ⟨0, [0], 0⟩), (1, (⟨0, [0, 1], 7⟩ : Ev Nat (List Nat) Nat))] 2 =
      some (.ok [(0, 100), (1, 100)]) := ⟨rfl, rfl⟩

/-- C142 fails if the metrics of neighbouring levels are not the same: here the memory counts other loads than the misses
of the last cache, as on Skylake. -/
def wOther : Metrics Nat :=
  { wMetrics [("accesses", one 1)] with
    levels := (wMetrics [("accesses", one 1)]).levels.dropLast ++ [("MEM", [("loads", one 9), ("stores", one 8)])] }
theorem C142_negation_volumes :
    times (integrated wOpts wCount (wEvent 0) wOther 10 64 2000 100 wLevels (fun _ _ => .ok 8000)) = [1, 1, 9, 26, 304] ∧
    times (alone 0 wOpts wCount (wEvent 0) wOther 9 64 2000 100 wLevels (fun _ _ => .ok 8000)) = [1, 1, 9, 26, 272] := by decide +kernel

/-- C142 fails for loops whose range is no multiple of the step: the integrated benchmark divides 5 by 2, the stand-alone
one rounds down. -/
theorem C142_negation_steps : ∃ (l : Iteration.Loop) (i : Standalone.LoopInfo), SameLoops [l] [i] ∧
    iterationsPerRepetition [l] = some (5 / 2) ∧ (Standalone.iterationsPerRepetition [i]).toOption = some 2 := by
  refine ⟨⟨0, 5, 2⟩, ⟨0, 5, 2, none, 0⟩, .cons ⟨by norm_num, by norm_num, by norm_num⟩ .nil, ?_, ?_⟩
  · decide +kernel
  · decide +kernel

example : SameLoops [⟨0, 100, 1⟩, ⟨1, 99, 2⟩] [⟨0, 100, 1, none, 0⟩, ⟨1, 99, 2, some "N", 1⟩] ∧
    ∀ l ∈ ([⟨0, 100, 1⟩, ⟨1, 99, 2⟩] : List Iteration.Loop), l.incr ≠ 0 ∧ l.incr ∣ l.stop - l.start := by
  refine ⟨.cons ⟨by norm_num, by norm_num, by norm_num⟩ (.cons ⟨by norm_num, by norm_num, by norm_num⟩ .nil), by decide⟩

end Verif.RegionEcm
