import Mathlib.Logic.Function.Basic
import Mathlib.Data.Rat.Defs

/-!
Repetitions of the regions of a stand-alone benchmark (`kernel.py:1921-1943`, `1961-1984` of `BinaryDescription` and `models/standalone_benchmark.py:283-293`).
`self.repetitions` is a dictionary of dictionaries; a region without an own entry gets the *same* dictionary as the region `''` (line 1971), so a dictionary is
identified by the region it was made for. Loops and operations of regions are treated in `Standalone` and `Pheno`.
-/

namespace Verif.Repetitions

/-- An argument of `-R`: `marker`, a number (`int` accepts it) or the name of a variable. -/
inductive Arg where
  | marker
  | number (n : Int)
  | var (name : String)
deriving DecidableEq, Repr

/-- The dictionary `{'marker': …, 'variable': …, 'value': …}` -/
structure Rep where
  marker : Bool
  var : Option String
  value : Option Int
deriving DecidableEq, Repr

/-- `kernel.py:1923-1943` -/
def Rep.of : Arg → Rep
  | .marker => ⟨true, none, none⟩
  | .number n => ⟨false, none, some n⟩
  | .var x => ⟨false, some x, none⟩

/-- For each region, the region its dictionary was made for, and the dictionaries. -/
structure State where
  owners : List (String × String)
  heap : String → Rep

/-- `kernel.py:1921-1943`; `useMarker` is `args.marker['use_marker']`. Regions occur once in `args.repetitions`. -/
def initial (useMarker : Bool) (args : List (String × Arg)) : Except String State :=
  if args.any (fun a => a.2 = .marker) && !useMarker then .error "SystemExit"
  else .ok ⟨args.map fun a => (a.1, a.1), fun s => ((args.lookup s).map Rep.of).getD ⟨false, none, some 1⟩⟩

/-- `kernel.py:1961-1984`, the repetitions: regions without an entry share that of `''`. -/
def check (owners : List (String × String)) : List String → Except String (List (String × String))
  | [] => .ok owners
  | r :: rs =>
    match owners.lookup r with
    | some _ => check owners rs
    | none =>
      match owners.lookup "" with
      | some o => check (owners ++ [(r, o)]) rs
      | none => .error "SystemExit"

/-- `models/standalone_benchmark.py:283-290`: the loop over the regions of a run. `calls` are the call counts measured, `define` the values of variables. -/
def update (owners : List (String × String)) (calls : String → Int) (define : List (String × Int)) : List String → (String → Rep) → Except String (String → Rep)
  | [], heap => .ok heap
  | r :: rs, heap =>
    match owners.lookup r with
    | none => .error "KeyError"
    | some o =>
      if (heap o).marker then update owners calls define rs (Function.update heap o { heap o with value := some (calls r) })
      else
        match (heap o).var with
        | some x =>
          match define.lookup x with
          | none => .error "KeyError"
          | some v => update owners calls define rs (Function.update heap o { heap o with value := some v })
        | none => update owners calls define rs heap

/-- `models/standalone_benchmark.py:292-293`: `runtimes[r] / float(repetitions[r]['value'])` -/
def timePer (owners : List (String × String)) (heap : String → Rep) (runtime : String → ℚ) (r : String) : Except String ℚ :=
  match owners.lookup r with
  | none => .error "KeyError"
  | some o =>
    match (heap o).value with
    | none => .error "TypeError"
    | some v => if v = 0 then .error "ZeroDivisionError" else .ok (runtime r / v)

/-- The time per repetition of each region after a run. `regions` are the regions in the order of the set. -/
def times (useMarker : Bool) (args : List (String × Arg)) (regions : List String) (calls : String → Int) (define : List (String × Int)) (runtime : String → ℚ) :
    Except String (List (String × ℚ)) := do
  let s ← initial useMarker args
  let owners ← check s.owners regions
  let heap ← update owners calls define regions s.heap
  regions.mapM fun r => do
    let t ← timePer owners heap runtime r
    .ok (r, t)

end Verif.Repetitions
