import Verif.Model.Measure
import Verif.Model.Standalone

/-!
Under which key the stand-alone benchmark stores its results (`standalone_pheno.py:332-395`), with the constants of the
kernel (`kernel.py:283-288`, `2026-2042`) as they change while the variables are adjusted
(`models/standalone_benchmark.py:180-284`). Writing the file is in `Storage` (C42, C43).
-/

namespace Verif.AloneStore

open Verif.Standalone Verif.Measure

/-- `kernel.constants` in its order. -/
abbrev Consts := List (String × ℚ)

/-- `standalone_pheno.py:352-359`: constants are cleared and set to the values of the definitions. -/
def initial (vars : List Var) : Consts := vars.foldl (fun c v => put v.name v.value c) []

/-- `standalone_benchmark.py:200-220` with `set_constant`. -/
def adjustRegions (st : St) (c : Consts) : List (String × ℚ) → Except Err ((St × Consts) × Bool)
  | [] => .ok ((st, c), false)
  | (region, runtime) :: rest =>
    match adjustFirst region runtime st.vars with
    | .error e => .error e
    | .ok (vars, none) => adjustRegions { st with vars := vars } c rest
    | .ok (vars, some (name, x)) =>
      match st.loops.lookup region with
      | none => .error .key
      | some ids =>
        match adjustRegions { st with vars := vars, heap := modifyAt (adjustLoop name x) ids st.heap } (put name x c) rest with
        | .error e => .error e
        | .ok (r, _) => .ok (r, true)

/-- `standalone_benchmark.py:249-284`: variables, constants and the arguments of the last measurement; as
`Standalone.measureLoop`. -/
def measureLoop (measure : Nat → St → List (String × ℚ)) :
    Nat → Nat → List (String × ℚ) → St → Consts → List ℚ → Option (Except Err (St × Consts × List ℚ))
  | 0, _, _, _, _, _ => none
  | fuel + 1, n, runtimes, st, c, last =>
    match minRuntime runtimes with
    | none => some (.error .value)
    | some m =>
      if m < 3 / 2 then
        if m = 0 then measureLoop measure fuel (n + 1) (measure n st) st c (st.vars.map (·.value))
        else match adjustRegions st c (runtimes.filter fun r => r.2 < 3 / 2) with
          | .error e => some (.error e)
          | .ok ((st', c'), false) => some (.ok (st', c', last))
          | .ok ((st', c'), true) => measureLoop measure fuel (n + 1) (measure n st') st' c' (st'.vars.map (·.value))
      else some (.ok (st, c, last))

/-- `os.path.split(path)[1]` -/
def baseName (path : List Char) : List Char := (path.reverse.takeWhile (· ≠ '/')).reverse

/-- The results by program, constants and model. -/
abbrev Storage (ρ : Type) := List (List Char × List (Consts × List (String × ρ)))

/-- `standalone_pheno.py:379-384` -/
def store {ρ : Type} (s : Storage ρ) (binary : List Char) (c : Consts) (r : ρ) : Storage ρ :=
  let ofBin := (get (baseName binary) s).getD []
  put (baseName binary) (put c (put "stand-alone benchmark" r ((get c ofBin).getD [])) ofBin) s

/-- What a later reader finds of a model. -/
def findOf {ρ : Type} (s : Storage ρ) (name : List Char) (c : Consts) (model : String) : Option ρ :=
  match get name s with
  | none => none
  | some ofBin => match get c ofBin with
    | none => none
    | some models => get model models

/-- What a later reader finds of the stand-alone benchmark. -/
def find {ρ : Type} (s : Storage ρ) (name : List Char) (c : Consts) : Option ρ := findOf s name c "stand-alone benchmark"

/-- What is given on the command line, as far as it selects what is measured: besides the definitions the program, the
machine file and the number of cores. -/
structure Setup where
  binary : List Char
  machine : List Char
  cores : Nat
  vars : List Var
  heap : List LoopInfo
  loops : List (String × List Nat)

/-- `run` (332-395): `measure` are the runtimes of a program on a machine, `result` is what the analysis makes of the
arguments of the last measurement. -/
def run {ρ : Type} (measure : Setup → Nat → St → List (String × ℚ)) (result : Setup → List ℚ → ρ) (fuel : Nat) (x : Setup) (s : Storage ρ) :
    Option (Except Err (Storage ρ)) :=
  match measureLoop (measure x) fuel 0 [("", 0)] ⟨x.vars, x.heap, x.loops⟩ (initial x.vars) [] with
  | none => none
  | some (.error e) => some (.error e)
  | some (.ok (_, c, last)) => some (.ok (store s x.binary c (result x last)))

end Verif.AloneStore
