import Verif.Model.Measure
import Verif.Model.PhenoEcm
import Verif.Model.Standalone

/-!
The results of the stand-alone benchmark for one region (`models/standalone_benchmark.py:307-446`) and
`region__bytes_per_iteration` (`kernel.py:2006-2014`). Floats are rationals, quantities with units are their numbers. The
integrated benchmark is in `Measure` and `PhenoEcm`.
-/

namespace Verif.RegionEcm

open Verif.Bench Verif.Transfer Verif.Measure

/-! ### Counters -/

section
variable {N D P R S V : Type} [DecidableEq N] [DecidableEq D] [DecidableEq P] [DecidableEq R] [DecidableEq S]

/-- Lines 362-364. Counters are filed by register and parameters (`PMC0:EDGEDETECT`); the parameters of the symbol are not
appended to the register here, so that only counters without parameters (`plain`) are found. -/
def matchRegs (plain : P) (sym : S) (counters : List ((R × P) × V)) (regs : List R) (res : List (S × V)) : List (S × V) :=
  regs.foldl (fun res r => match get (r, plain) counters with
    | some v => put sym v res
    | none => res) res

/-- Lines 359-364; `measured` are the counters of the region. -/
def matchSymbols (plain : P) (opts : D → Gen R) (measured : List (N × List ((R × P) × V))) :
    List (S × Ev N D P) → List (S × V) → Except String (List (S × V))
  | [], res => .ok res
  | (sym, e) :: rest, res =>
    match get e.name measured with
    | none =>
      if (opts e.regs).vals = [] then
        (if (opts e.regs).raises then .error "AttributeError" else matchSymbols plain opts measured rest res)
      else .error "KeyError"
    | some counters =>
      if (opts e.regs).raises then .error "AttributeError"
      else matchSymbols plain opts measured rest (matchRegs plain sym counters (opts e.regs).vals res)

/-- Lines 327-341 and 359-364 for one region: `count i e` is the value that likwid reports for the event `e` and the
region in run `i`. -/
def counters (plain : P) (opts : D → Gen R) (count : Nat → N × R × P → V) (symbols : List (S × Ev N D P)) (fuel : Nat) :
    Option (Except String (List (S × V))) :=
  (buildRuns opts (symbols.map Prod.snd) fuel).map fun
    | .error x => .error x
    | .ok runs => matchSymbols plain opts (measureRuns count 0 runs []) symbols []

end

/-! ### Results -/

/-- `region__bytes_per_iteration`: `size` bytes per element and the steps of the loops of the region; `none` is an
IndexError. -/
def regionBytes (size : ℚ) (steps : List ℚ) : Option ℚ := steps.getLast?.map (size * ·)

/-- The entries of `self.results[region]` that are calculated from the runtime (lines 350-354, 416-446). `none` is a
ZeroDivisionError. -/
def numbers (clSize bytesPerIt iterations timePer clock repetitions : ℚ) (flops : Nat) (gbytes : Option ℚ) :
    Option PhenoEcm.Numbers :=
  if bytesPerIt = 0 ∨ iterations = 0 ∨ timePer = 0 ∨ repetitions = 0 then none
  else
    let perCl := clSize / bytesPerIt
    let cys := timePer * clock
    some ⟨timePer, cys / iterations * perCl, flops / (timePer / iterations) / 1000000, iterations / timePer / 1000000,
      iterations / timePer / 1000000, gbytes.map (· * 1000000000 / repetitions)⟩

/-- Lines 367-412: the field `tMEM` is the entry `T_L3MEM`. -/
def ecm (clSize clock total tOL _tData : ℚ) (hierarchy : List Level) (bw : ℚ → ℚ → Except String ℚ)
    (m : String → String → Option ℚ) : Except String PhenoEcm.Ecm := do
  if total = 0 then throw "ZeroDivisionError"
  let l1 ← PhenoEcm.value m "L1" "accesses"
  let l3m ← PhenoEcm.value m "L3" "misses"
  let l3e ← PhenoEcm.value m "L3" "evicts"
  let b ← bw l3m l3e
  let l1m ← PhenoEcm.value m "L1" "misses"
  let l1e ← PhenoEcm.value m "L1" "evicts"
  let r1 ← PhenoEcm.rateOf hierarchy 1
  let l2m ← PhenoEcm.value m "L2" "misses"
  let l2e ← PhenoEcm.value m "L2" "evicts"
  let r2 ← PhenoEcm.rateOf hierarchy 2
  if b = 0 then throw "ZeroDivisionError"
  return ⟨tOL / total, l1 / total * (1 / 2), (l1m + l1e) / total * clSize / r1, (l2m + l2e) / total * clSize / r2,
    (l3m + l3e) * clSize / total / b * clock⟩

/-! ### Both analyses from the counters to the model -/

/-- A parsed metric (`machinemodel.py:586-610`): its symbols and its value for values of the symbols; `none` stands for
results that are no numbers. -/
structure Metric (S : Type) where
  syms : List S
  value : List ℚ → Option ℚ

/-- The metrics of the machine file: overlapping model, non-overlapping model, and those of the levels in their order. -/
structure Metrics (S : Type) where
  tOL : Metric S
  tData : Metric S
  levels : List (String × List (String × Metric S))

section
variable {N D P R S : Type} [DecidableEq N] [DecidableEq D] [DecidableEq P] [DecidableEq R] [DecidableEq S]

/-- `e.subs(event_counter_results)`. If a symbol has no value, the result is no number and fails later on; it is treated
as missing here. -/
def Metric.eval (out : List (S × ℚ)) (m : Metric S) : Option ℚ := (m.syms.mapM fun s => get s out).bind m.value

/-- `cache_metrics[level][name]` -/
def metricOf (levels : List (String × List (String × Metric S))) (level name : String) : Option (Metric S) :=
  (levels.lookup level).bind (·.lookup name)

/-- `event_counters` of some levels (lines 311-324); the symbols of one metric are an unordered set in Python. -/
def symbols (tOL tData : Metric S) (levels : List (String × List (String × Metric S))) : List S :=
  (tOL.syms ++ tData.syms ++ levels.flatMap fun l => l.2.flatMap fun k => k.2.syms).dedup

/-- Lines 309-412 of the stand-alone benchmark: the last level has no metrics. `event` is the parsed name of a symbol;
`none`: the planner is still running after `fuel` rounds. -/
def alone (plain : P) (opts : D → Gen R) (count : Nat → N × R × P → ℚ) (event : S → Ev N D P) (ms : Metrics S) (fuel : Nat)
    (clSize clock total : ℚ) (hierarchy : List Level) (bw : ℚ → ℚ → Except String ℚ) : Option (Except String PhenoEcm.Ecm) :=
  (counters plain opts count ((symbols ms.tOL ms.tData ms.levels.dropLast).map fun s => (s, event s)) fuel).map fun
    | .error x => .error x
    | .ok out =>
      match ms.tOL.eval out with
      | none => .error "TypeError"
      | some t => ecm clSize clock total t ((ms.tData.eval out).getD 0) hierarchy bw
          fun l k => (metricOf ms.levels.dropLast l k).bind (Metric.eval out)

/-- `models/benchmark.py:404-497` of the integrated benchmark. -/
def integrated (opts : D → Gen R) (count : Nat → N × R × P → ℚ) (event : S → Ev N D P) (ms : Metrics S) (fuel : Nat)
    (clSize clock total : ℚ) (hierarchy : List Level) (bw : ℚ → ℚ → Except String ℚ) : Option (Except String PhenoEcm.Ecm) :=
  (Measure.counters opts count ((symbols ms.tOL ms.tData ms.levels).map fun s => (s, event s)) fuel).map fun
    | .error x => .error x
    | .ok out =>
      match ms.tOL.eval out with
      | none => .error "TypeError"
      | some t => PhenoEcm.ecm clSize clock total t ((ms.tData.eval out).getD 0) hierarchy bw
          fun l k => (metricOf ms.levels l k).bind (Metric.eval out)

end

end Verif.RegionEcm
