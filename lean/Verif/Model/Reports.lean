import Mathlib.Data.List.Sort

/-!
What the reports of the performance models print, and to which stream (`models/ecm.py`, `models/roofline.py`, `models/benchmark.py`,
`models/standalone_benchmark.py`, `models/layer_condition.py`, `kerncraft.py:383-414`). The texts are not modelled: a printed piece says what it is
about and in which unit a quantity in it is. `verbose` is the number of `-v` options and the models have been created with arguments from the command line.
-/

namespace Verif.Reports

/-- Where a piece is printed. -/
inductive Stream where
  | file
  | stdout
  | stderr
deriving DecidableEq, Repr

/-- A printed piece: the quantity `name` (of level, cache or region `of`) in a unit, other information, or the warning about complex numbers. -/
inductive Piece where
  | value (name : String) (of : String) (unit : String)
  | info (name : String) (of : String)
  | warning
deriving DecidableEq, Repr

/-- The options and results that decide about what is printed: `--verbose`, `--unit`, `--no-phenoecm`, the types of the variables, the names of
`results['cycles']`, whether `results['penalty']` is not zero and `'memory bandwidth kernel'` is in the results, the levels of `results['mem bottlenecks']`
(`RooflineASM` skips entries that are `None`), whether the CPU is the bottleneck, the caches with layer conditions, the caches in `results['data transfers']`,
and the regions of a stand-alone benchmark. -/
structure Run where
  verbose : Nat
  unit : String
  noPheno : Bool
  types : List (List String)
  cycles : List String
  penalty : Bool
  bwKernel : Bool
  bottlenecks : List (Option String)
  cpuBound : Bool
  lcs : List (String × List String)
  transfers : List String
  regions : List String
  description : Bool
deriving Repr

/-- `any(['_Complex' in var_info[0] for var_info in self.kernel.variables.values()])` -/
def Run.complex (r : Run) : Bool := r.types.any (·.contains "_Complex")

/-- `if c: …` -/
def when (c : Bool) (l : List (Stream × Piece)) : List (Stream × Piece) := if c then l else []

/-- The warning at the end of `models/ecm.py:232-236`, `394-398`, `611-615` and `models/roofline.py:390-394`. -/
def warnUnit (r : Run) : List (Stream × Piece) := when (r.complex && r.unit == "FLOP/s") [(.stderr, .warning)]

/-- `models/ecm.py:209-236` `ECMData.report`; line 219 has no `file`. -/
def ecmData (out : Stream) (r : Run) : List (Stream × Piece) :=
  when (r.verbose > 1) [(out, .info "verbose infos" "")] ++
  r.cycles.map (fun l => (out, .value "cycles" l r.unit)) ++
  when r.penalty [(.stdout, .value "penalty cycles" "" "cy/CL")] ++
  when (r.verbose > 1 && r.bwKernel) [(out, .info "memory bandwidth kernel" "")] ++
  when (r.verbose > 1) [(out, .info "data transfers" "")] ++
  warnUnit r

/-- `models/ecm.py:373-398` `ECMCPU.report` -/
def ecmCpu (out : Stream) (r : Run) : List (Stream × Piece) :=
  when (r.verbose > 2) [(out, .info "in-core model output" "")] ++
  when (r.verbose > 1) [(out, .info "pointer_increment" ""), (out, .info "elements_per_block" ""), (out, .info "port cycles" ""), (out, .info "uops" ""),
    (out, .value "cl throughput" "" r.unit)] ++
  [(out, .value "T_comp" "" "cy/CL"), (out, .value "T_RegL1" "" "cy/CL")] ++
  warnUnit r

/-- `models/ecm.py:567-615` `ECM.report`: the reports of the two parts (570-572) are called without `output_file`. The text printed at the end is one piece. -/
def ecm (out : Stream) (r : Run) : List (Stream × Piece) :=
  when (r.verbose > 1) (ecmCpu .stdout r ++ ecmData .stdout r) ++
  [(out, .value "total cycles" "" r.unit)] ++
  warnUnit r

/-- `models/roofline.py:185-228` `RooflineFLOP.report`; its bottlenecks are not `None`. Line 211 prints the performance in all units, including FLOP/s. -/
def rooflineFlop (out : Stream) (r : Run) : List (Stream × Piece) :=
  when (r.verbose ≥ 3) [(out, .info "results" "")] ++
  when (r.verbose ≥ 1) ([(out, .info "verbose infos" ""), (out, .value "performance" "CPU" r.unit)] ++
    (r.bottlenecks.filterMap id).map (fun l => (out, .value "performance" l r.unit))) ++
  (if r.cpuBound then [(out, .value "max_perf" "" "FLOP/s")]
    else [(out, .value "bottleneck" "" r.unit), (out, .value "arithmetic intensity" "" "It/B")]) ++
  when r.complex [(.stderr, .warning)]

/-- `models/roofline.py:341-394` `RooflineASM.report` -/
def rooflineAsm (out : Stream) (r : Run) : List (Stream × Piece) :=
  when (r.verbose ≥ 3) [(out, .info "results" "")] ++
  when (r.verbose ≥ 1) ([(out, .value "performance" "CPU" r.unit)] ++
    (r.bottlenecks.filterMap id).map (fun l => (out, .value "performance" l r.unit)) ++ [(out, .info "cpu bottleneck" "")]) ++
  (if r.cpuBound then [(out, .value "cpu bottleneck" "" r.unit)]
    else [(out, .value "bottleneck" "" r.unit), (out, .value "arithmetic intensity" "" "It/B")]) ++
  warnUnit r

/-- The part that `models/benchmark.py:528-579` `Benchmark.report` and `models/standalone_benchmark.py:455-508` `report` have in common: the dump of the
results and the table of data transfers have no `file`. `of` is the region of a stand-alone benchmark. -/
def measured (out : Stream) (r : Run) (of : String) : List (Stream × Piece) :=
  when (r.verbose > 1) [(.stdout, .info "results" of)] ++
  when (r.verbose > 0) [(out, .value "runtime" of "s"), (out, .info "iterations" of)] ++
  [(out, .value "runtime" of "cy/CL"), (out, .value "memory volume" of "B"), (out, .value "performance" of "FLOP/s"), (out, .value "performance" of "LUP/s"),
    (out, .value "performance" of "It/s")] ++
  when (r.verbose > 0) [(out, .value "memory bandwidth" of "B/s")] ++
  when (!r.noPheno) ([(.stdout, .info "data transfers" "")] ++ r.transfers.map (fun c => (.stdout, .info "data transfers" c)) ++
    [(out, .value "ECM" of "cy/CL"), (out, .info "assumption" "")])

/-- `models/benchmark.py:526-579` -/
def benchmark (out : Stream) (r : Run) : List (Stream × Piece) := measured out r ""

/-- `models/standalone_benchmark.py:448-508`: the name of the region (453) has no `file`. -/
def standalone (out : Stream) (r : Run) : List (Stream × Piece) :=
  r.regions.flatMap fun n => [(.stdout, .info "region" n)] ++ measured out r n

/-- `models/layer_condition.py:52-67` `LC.report`: nothing is printed to `output_file`. -/
def layerConditions (_out : Stream) (r : Run) : List (Stream × Piece) :=
  when (r.verbose > 2) [(.stdout, .info "results" "")] ++
  r.lcs.flatMap fun c => [(.stdout, .info "layer conditions" c.1)] ++ c.2.map (fun l => (.stdout, .info "condition" l))

/-- The performance models (`models/__init__.py:15-16`). -/
inductive Model where
  | ecm
  | ecmData
  | ecmCpu
  | rooflineFlop
  | rooflineAsm
  | benchmark
  | standalone
  | lc
deriving DecidableEq, Repr

/-- `model.report(output_file=out)` -/
def report : Model → Stream → Run → List (Stream × Piece)
  | .ecm => ecm
  | .ecmData => ecmData
  | .ecmCpu => ecmCpu
  | .rooflineFlop => rooflineFlop
  | .rooflineAsm => rooflineAsm
  | .benchmark => benchmark
  | .standalone => standalone
  | .lc => layerConditions

/-- `kerncraft.py:383-414`, the body of the loop over the models: header, information about the kernel, report. -/
def session (out : Stream) (m : Model) (r : Run) : List (Stream × Piece) :=
  [(out, .info "header" "")] ++
  when (r.verbose > 1) (when (!r.description) [(out, .info "kernel code" "")] ++ [(out, .info "variables" ""), (out, .info "kernel" "")]) ++
  when (r.verbose > 0) [(out, .info "constants" "")] ++
  report m out r ++
  [(out, .info "end" "")]

/-! The table of data transfers. A number of a cache is looked up by its name. -/

/-- Printed cells of a row. -/
abbrev Cells := List String

/-- `models/benchmark.py:558-567`: head of the table -/
def benchmarkHead : List String := ["loads", "misses", "stores", "evicts"]

/-- `models/benchmark.py:564-569`: `metrics.get(mn, '-')` for each column -/
def benchmarkRow (metrics : List (String × String)) : Cells := benchmarkHead.map fun n => (metrics.lookup n).getD "-"

/-- `models/standalone_benchmark.py:489-493`: the sorted names of the first cache; nothing without caches -/
def standaloneHead (caches : List (String × List (String × String))) : List String :=
  match caches with
  | [] => []
  | c :: _ => (c.2.map (·.1)).insertionSort (· ≤ ·)

/-- `models/standalone_benchmark.py:494-497`: `sorted(metrics.items())`; names occur once in a dictionary, so they decide. -/
def standaloneRow (metrics : List (String × String)) : Cells := (metrics.insertionSort (fun a b => a.1 ≤ b.1)).map (·.2)

end Verif.Reports
