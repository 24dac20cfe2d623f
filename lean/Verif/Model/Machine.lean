import Mathlib.Data.Rat.Defs
import Mathlib.Algebra.Order.Ring.Rat
import Mathlib.Data.String.Basic
import Mathlib.Data.List.Sort

/-!
Model of parts of `kerncraft/machinemodel.py` (`get_bandwidth`, `get_cachesim`, `get_compiler`,
`parse_perfctr_event`, `__init__`, `update`) and of `eventstr` in `kerncraft/models/benchmark.py`.
Floats are rationals; `inf` and `nan` are explicit where the code meets them.
-/

namespace Verif.Machine

/-! ### Bandwidth selection (`machinemodel.py:444-508`) -/

/-- Result of `abs(a - b)` on floats of which some may be `inf`. -/
inductive FDist
  | fin (q : ℚ)
  | inf
  | nan
deriving DecidableEq, Repr

/-- Float comparison `<`; every comparison with `nan` is false. -/
def FDist.lt : FDist → FDist → Bool
  | .fin a, .fin b => a < b
  | .fin _, .inf => true
  | _, _ => false

/-- `abs(a - b)`, `none` being `inf`. -/
def absDiff : Option ℚ → Option ℚ → FDist
  | some a, some b => .fin |a - b|
  | none, none => .nan
  | _, _ => .inf

/-- An entry of `benchmarks.kernels`: numbers of streams and bytes. -/
structure Bench where
  readStreams : Int
  writeStreams : Int
  rwStreams : Int
  readBytes : ℚ
  writeBytes : ℚ
  rwBytes : ℚ
deriving DecidableEq, Repr

/-- Lines 457-460 and 464-470: ratios, `inf` on division by zero. -/
def ratio (num den : Int) : Option ℚ := if den = 0 then none else some ((num : ℚ) / den)

/-- Lines 465-468. -/
def Bench.ratio (b : Bench) : Option ℚ :=
  Machine.ratio (b.readStreams + b.writeStreams - b.rwStreams) b.writeStreams

/-- Lines 472-475: one step of the selection loop. -/
def bwStep (target : Option ℚ) (cur : (String × Bench) × Option ℚ) (k : String × Bench) :
    (String × Bench) × Option ℚ :=
  if (absDiff k.2.ratio target).lt (absDiff cur.2 target) then (k, k.2.ratio) else cur

/-- Lines 457-475: the chosen benchmark kernel; `none` is the KeyError for a missing `load`. -/
def selectKernel (kernels : List (String × Bench)) (readStreams writeStreams : Int) :
    Option (String × Bench) :=
  (kernels.lookup "load").map fun info =>
    ((kernels.insertionSort (fun a b => a.1 ≤ b.1)).foldl
      (bwStep (ratio readStreams writeStreams)) (("load", info), none)).1

/-- An entry of `benchmarks.measurements[level][threads]`. -/
structure Meas where
  threadsPerCore : Nat
  cores : List Nat
  results : List (String × List ℚ)
deriving Repr

/-- Lines 483-494: the measured value. `maxCores` is
`min(cores per group of the level, cores per NUMA domain)`. -/
def measured (m : Meas) (kernel : String) (cores : Option Nat) (maxCores : Nat) : Except String ℚ :=
  match cores with
  | some c =>
    if c ∈ m.cores then
      match m.results.lookup kernel with
      | none => .error "KeyError"
      | some r => match r[m.cores.idxOf c]? with
        | none => .error "IndexError"
        | some v => .ok v
    else .error "ValueError"
  | none =>
    match m.results.lookup kernel with
    | none => .error "KeyError"
    | some r => match r.take maxCores with
      | [] => .error "ValueError"
      | x :: xs => .ok (xs.foldl max x)

/-- Lines 498-506: write-allocate correction. -/
def factor (cacheLevel : Nat) (b : Bench) : Except String ℚ :=
  if cacheLevel = 0 then .ok 1
  else if b.readBytes + b.writeBytes = 0 then .error "ZeroDivisionError"
  else .ok ((b.readBytes + 2 * b.writeBytes - b.rwBytes) / (b.readBytes + b.writeBytes))

/-- Lines 444-508 `get_bandwidth`. `meas` is the looked-up measurement (`none`: KeyError). -/
def getBandwidth (kernels : List (String × Bench)) (meas : Option Meas) (cacheLevel : Nat)
    (readStreams writeStreams : Int) (threads : Nat) (cores : Option Nat) (maxCores : Nat) :
    Except String (ℚ × String) :=
  match selectKernel kernels readStreams writeStreams with
  | none => .error "KeyError"
  | some (name, info) =>
    match meas with
    | none => .error "KeyError"
    | some m =>
      if threads = m.threadsPerCore then
        match measured m name cores maxCores with
        | .error e => .error e
        | .ok v => match factor cacheLevel info with
          | .error e => .error e
          | .ok f => .ok (v * f, name)
      else .error "AssertionError"

/-! ### Cache simulator (`machinemodel.py:419-442`) -/

/-- A cache level of the machine file: sets per group and cores per group. -/
structure Level where
  sets : Nat
  coresPerGroup : Nat
deriving DecidableEq, Repr

/-- Lines 429-439: sets of every level of a freshly built simulator; `none` is the ZeroDivisionError. -/
def buildSim (levels : List Level) (numaCores cores : Nat) : Option (List Nat) :=
  levels.mapM fun l =>
    if l.coresPerGroup > 1 then
      if min cores numaCores = 0 then none else some (l.sets / min cores numaCores)
    else some l.sets

/-- Lines 425-442: the state is the memoised simulator. -/
def getCachesim (levels : List Level) (numaCores : Nat) (memo : Option (List Nat)) (cores : Nat) :
    Option (List Nat) × Option (List Nat) :=
  match memo with
  | some s => (some s, some s)
  | none => match buildSim levels numaCores cores with
    | none => (none, none)
    | some s => (some s, some s)

/-- A history of requests on one machine model; returns the memo and the last answer. -/
def simHistory (levels : List Level) (numaCores : Nat) : Option (List Nat) → List Nat → Option (List Nat)
  | memo, [] => memo
  | memo, c :: cs => simHistory levels numaCores (getCachesim levels numaCores memo c).1 cs

/-! ### Compiler selection (`machinemodel.py:510-535`); strings as character lists -/

/-- Python `a or b` on optional strings: empty strings count as false. -/
def pyOr (a b : Option (List Char)) : Option (List Char) :=
  match a with
  | some (c :: cs) => some (c :: cs)
  | _ => b

/-- Lines 510-535. `args` holds the command line's compiler and flags (`None` without command line),
`found` is `find_executable(c) is not None`. -/
def getCompiler (table : List (List Char × List Char)) (found : List Char → Bool)
    (args : Option (Option (List Char) × Option (List Char)))
    (compiler flags : Option (List Char)) : Except String (List Char × List (List Char)) :=
  let compiler := match args with
    | some a => pyOr compiler a.1
    | none => compiler
  let flags := match args with
    | some a => pyOr flags a.2
    | none => flags
  let chosen : Except String (List Char) := match compiler with
    | some c => .ok c
    | none => match (table.map (·.1)).find? found with
      | some c => .ok c
      | none => .error "RuntimeError"
  match chosen with
  | .error e => .error e
  | .ok c =>
    let flags := match flags with
      | some f => f
      | none => (table.lookup c).getD []
    .ok (c, flags.splitOn ' ')

/-! ### Event strings -/

/-- An event: name, register description, parameters. -/
structure Event where
  event : List Char
  register : List Char
  parameters : List (List Char)
deriving DecidableEq, Repr

/-- `machinemodel.py:568-584` `parse_perfctr_event`. -/
def parseEvent (s : List Char) : Except String Event :=
  match s.splitOn ':' with
  | e :: r :: ps => .ok ⟨e, r, ps⟩
  | _ => .error "AssertionError"

/-- `models/benchmark.py:129-156` `eventstr` of a tuple; without parameters nothing is appended. -/
def eventStr (e : Event) : List Char := [':'].intercalate (e.event :: e.register :: e.parameters)

/-! ### Sharing of loaded machine files (`machinemodel.py:88`, `150-183`, `188-201`)

Content of a file and of a description is an abstract value `C`. `abspath` is the identity here: paths are
absolute. All objects created from one path share the dictionary stored in the class attribute. -/

variable {C : Type}

/-- Process state: files on disk, class-level cache, created objects (by path). -/
structure YamlState (C : Type) where
  files : Nat → Option C
  cache : Nat → Option C
  objects : List Nat

/-- Operations: change a file on disk, create a machine model, `update` object number `i` with a function on
its data. -/
inductive YamlOp (C : Type)
  | write (path : Nat) (content : C)
  | create (path : Nat)
  | update (i : Nat) (f : C → C)

/-- One operation. `supported` is the version check, which runs after the cache was filled (164-183). -/
def yamlStep (supported : C → Bool) (s : YamlState C) : YamlOp C → Except String (YamlState C) × YamlState C
  | .write p c => let s' := { s with files := Function.update s.files p (some c) }
    (.ok s', s')
  | .create p =>
    match s.cache p with
    | some c => if supported c then
        let s' := { s with objects := s.objects ++ [p] }
        (.ok s', s')
      else (.error "ValueError", s)
    | none => match s.files p with
      | none => (.error "FileNotFoundError", s)
      | some c =>
        let s' := { s with cache := Function.update s.cache p (some c) }
        if supported c then
          let s'' := { s' with objects := s.objects ++ [p] }
          (.ok s'', s'')
        else (.error "ValueError", s')
  | .update i f =>
    match s.objects[i]? with
    | none => (.error "IndexError", s)
    | some p =>
      let s' := { s with cache := Function.update s.cache p ((s.cache p).map f) }
      (.ok s', s')

/-- Data seen through object `i`. -/
def YamlState.data (s : YamlState C) (i : Nat) : Option C := s.objects[i]?.bind s.cache

/-- State after a history; failing operations are caught by the caller. -/
def yamlRun (supported : C → Bool) (s : YamlState C) (ops : List (YamlOp C)) : YamlState C :=
  ops.foldl (fun s op => (yamlStep supported s op).2) s

end Verif.Machine
