import Mathlib.Algebra.Order.Field.Rat
import Mathlib.Data.Rat.Floor

/-!
Stand-alone benchmark: `StandaloneBenchmark.adjust_variables` and the measurement loop of `analyze`
(`models/standalone_benchmark.py:180-284`), `BinaryDescription` (`kernel.py:1874-2040`). Floats are rationals. Only what
determines values, loops and the end of the loop is modelled; measured runtimes are an input.
-/

namespace Verif.Standalone

/-- An entry of `kernel.define` (`standalone_pheno.py:55-75`). `log` is `scale == 'log'`; `stop` and `log` are
meaningful for adjustable variables only. -/
structure Var where
  name : String
  regions : List String
  value : ℚ
  stop : ℚ
  adjustable : Bool
  log : Bool
deriving DecidableEq, Repr

/-- A loop description (`standalone_pheno.py:130-131`); `offset` is set in `kernel.py:1908-1913` if there is a
variable. -/
structure LoopInfo where
  start : ℚ
  stop : ℚ
  step : ℚ
  var : Option String
  offset : ℚ
deriving DecidableEq, Repr

/-- `kernel.define` in its order, the loop descriptions and, for each region, the descriptions in the list
`kernel.loops[region]` by their index. Regions may share descriptions (`standalone_pheno.py:141-147`) and lists
(`kernel.py:1965`). -/
structure St where
  vars : List Var
  heap : List LoopInfo
  loops : List (String × List Nat)
deriving DecidableEq, Repr

/-- Exceptions. -/
inductive Err where
  | key
  | zeroDivision
  | value
deriving DecidableEq, Repr

/-- Line 203: `ceil(2.0 / runtime)` -/
def factor (runtime : ℚ) : Int := ⌈2 / runtime⌉

/-- Lines 204-214: the new value of a variable, `none` if it is not adjusted. -/
def newValue (v : Var) (runtime : ℚ) : Option ℚ :=
  if v.log = false ∧ v.value < v.stop then some (min (v.value * factor runtime) v.stop)
  else if v.log = true ∧ v.value > v.stop then some (max (v.value * (10 : ℚ) ^ (-(factor runtime))) v.stop)
  else none

/-- Lines 186-190 `adjust_loop` for one description. -/
def adjustLoop (name : String) (value : ℚ) (l : LoopInfo) : LoopInfo :=
  if l.var = some name then { l with stop := value - l.offset } else l

/-- Lines 201-218: the loop over the variables until one is adjusted. The result are the new variables and the name and
value of the adjusted one. -/
def adjustFirst (region : String) (runtime : ℚ) : List Var → Except Err (List Var × Option (String × ℚ))
  | [] => .ok ([], none)
  | v :: vs =>
    if v.adjustable ∧ region ∈ v.regions then
      if runtime = 0 then .error .zeroDivision
      else match newValue v runtime with
        | some x => .ok ({ v with value := x } :: vs, some (v.name, x))
        | none => (adjustFirst region runtime vs).map fun r => (v :: r.1, r.2)
    else (adjustFirst region runtime vs).map fun r => (v :: r.1, r.2)

/-- Apply a function to the elements with the given indices. -/
def modifyAt (f : LoopInfo → LoopInfo) (ids : List Nat) (heap : List LoopInfo) : List LoopInfo :=
  heap.mapIdx fun i l => if i ∈ ids then f l else l

/-- Lines 201-218 for one region. -/
def adjustRegion (st : St) (region : String) (runtime : ℚ) : Except Err (St × Bool) := do
  let r ← adjustFirst region runtime st.vars
  match r.2 with
  | none => .ok ({ st with vars := r.1 }, false)
  | some (name, x) =>
    match st.loops.lookup region with
    | none => .error .key
    | some ids => .ok ({ st with vars := r.1, heap := modifyAt (adjustLoop name x) ids st.heap }, true)

/-- Lines 200-218: the loop over the regions. -/
def adjustRegions (st : St) : List (String × ℚ) → Except Err (St × Bool)
  | [] => .ok (st, false)
  | (region, runtime) :: rest => do
    let (st1, b) ← adjustRegion st region runtime
    let (st2, b') ← adjustRegions st1 rest
    .ok (st2, b || b')

/-- `adjust_variables(runtimes)` (180-220). -/
def adjustVariables (st : St) (runtimes : List (String × ℚ)) : Except Err (St × Bool) :=
  adjustRegions st (runtimes.filter fun r => r.2 < 3 / 2)

/-- `min(runtimes.values())` -/
def minRuntime : List (String × ℚ) → Option ℚ
  | [] => none
  | r :: rs => some (rs.foldl (fun m x => min m x.2) r.2)

/-- The loop of `analyze` (249-284) after `n` measurements; `measure n st` are the runtimes of measurement `n` with the
variables of `st`, by region. `none` if the loop does not end within the given number of rounds. -/
def measureLoop (measure : Nat → St → List (String × ℚ)) : Nat → Nat → List (String × ℚ) → St → Option (Except Err St)
  | 0, _, _, _ => none
  | fuel + 1, n, runtimes, st =>
    match minRuntime runtimes with
    | none => some (.error .value)
    | some m =>
      if m < 3 / 2 then
        if m = 0 then measureLoop measure fuel (n + 1) (measure n st) st
        else match adjustVariables st runtimes with
          | .error e => some (.error e)
          | .ok (st', false) => some (.ok st')
          | .ok (st', true) => measureLoop measure fuel (n + 1) (measure n st') st'
      else some (.ok st)

/-- Lines 224-247: the loop begins with runtime 0 of region `''`. -/
def run (measure : Nat → St → List (String × ℚ)) (fuel : Nat) (st : St) : Option (Except Err St) :=
  measureLoop measure fuel 0 [("", 0)] st

/-- `region__iterations_per_repetition` (`kernel.py:2020-2027`) for the loop descriptions of the region. A step of zero
raises `ZeroDivisionError`. -/
def iterationsPerRepetition : List LoopInfo → Except Err Int
  | [] => .ok 1
  | l :: ls => do
    if l.step = 0 then .error .zeroDivision
    else
      let n ← iterationsPerRepetition ls
      .ok (⌊(l.stop - l.start) / l.step⌋ * n)

end Verif.Standalone
