import Verif.Spec.Refresh

/-!
The generator of machine descriptions with a description as its basis: `MachineModel.update` (`machinemodel.py:188-202`) and the end of `main`
(`machinemodel.py:905-918`), with which information `get_machine_readouts` (679-706) and `get_memory_hierarchy` (709-787) fill in. What they read is
given; how they read it is in `Topology` (C96, C97), files are in `Generate` (C118), benchmarks in `BenchRun` and `BenchUpdate` (C88 to C90), calls that
are remembered in `Readout` (C124).
-/

namespace Verif.Refresh

/-- What can be read of a machine: entries that are always found, the name of the model and the clock, which may be missing, and for each cache its name and
entries (`size per group`, `groups`, …), and those of the main memory. -/
structure Machine where
  fixed : List (String × String)
  modelName : Option String
  clock : Option String
  caches : List (String × List (String × String))
  memory : List (String × String)

/-- `d[k] = v` -/
def put (k : String) (v : Val) : List (String × Val) → List (String × Val)
  | [] => [(k, v)]
  | (k', v') :: l => if k' = k then (k', v) :: l else (k', v') :: put k v l

/-- `d.update(e)` -/
def putAll (d e : List (String × Val)) : List (String × Val) := e.foldl (fun d p => put p.1 p.2 d) d

/-- `get_machine_readouts`: the default of the name is `None` (687-688), the clock is left out if it is not known (700-702). -/
def readouts (m : Machine) : List (String × Val) :=
  m.fixed.map (fun p => (p.1, .info p.2)) ++ [("model name", match m.modelName with | some n => .info n | none => .required)] ++
    match m.clock with | some c => [("clock", .info c)] | none => []

/-- Entries of a cache which nothing can be read for (lines 731-738, 741-749, 759-765). -/
def cacheRequired : List String :=
  ["upstream throughput", "sets", "ways", "cl_size", "replacement_policy", "write_allocate", "write_back", "metric loads", "metric stores",
    "metric misses", "metric evicts"]

/-- Entries of the main memory (775-785); its size is `None`. -/
def memoryRequired (placeholders : Bool) : List String :=
  ["metric loads", "metric stores", "size per group"] ++ if placeholders then ["upstream throughput"] else []

/-- `get_memory_hierarchy`: without placeholders, `cache per group` is not there when it is needed (750), and without caches the last one is not (768). -/
def hierarchy (placeholders : Bool) (m : Machine) : Except String (List Level) :=
  if m.caches = [] then .error "IndexError"
  else if !placeholders then .error "KeyError"
  else .ok (m.caches.map (fun c => ⟨c.1, cacheRequired.map (·, .required) ++ c.2.map fun p => (p.1, .info p.2)⟩) ++
    [⟨"MEM", (memoryRequired placeholders).map (·, .required) ++ m.memory.map fun p => (p.1, .info p.2)⟩])

/-- `--readouts`, `--memory-hierarchy`, `--benchmarks` and `--overwrite` -/
structure Opts where
  readouts : Bool := true
  hierarchy : Bool := true
  benchmarks : Bool := true
  overwrite : Bool := true

/-- Lines 188-202 `update`; `bench` is the entry `benchmarks` after the run (or up to the interruption), `state` the machine state. -/
def update (o : Opts) (m : Machine) (bench state : String) (d : Desc) : Except String Desc := do
  let d := if o.readouts then { d with entries := putAll d.entries (readouts m) } else d
  let d ← if o.hierarchy then (hierarchy o.overwrite m).map fun l => { d with levels := l } else .ok d
  let d := if o.benchmarks then { d with entries := put "benchmarks" (.info bench) d.entries } else d
  .ok { d with entries := put "machine state" (.info state) d.entries }

end Verif.Refresh
