import Verif.Model.Machine

/-!
What the number of cores of a run does to its predictions (`kerncraft.py:372-405`): the models build their predictors
(`models/ecm.py:66-81`, `models/roofline.py:42-57`, `models/layer_condition.py:47-60`), these reuse stored analyses
(`cacheprediction.py:259-283`, `511-538`) or ask the machine for its caches (`cacheprediction.py:419`, `543`), which keeps
the simulator of the first request (`machinemodel.py:425-442`). Files and machine do not change, so stored analyses stay fresh
(see C137), and intermediate files are kept. An exception (`none`) ends everything.
-/

namespace Verif.CoreRuns

/-- The two predictors; `-P LC` and `-P SIM`. -/
inductive Kind where
  | lc
  | sim
deriving DecidableEq, Repr

/-- Constants of the kernel. -/
abbrev Consts := List (String × Int)

/-- The place of a stored analysis: file name, and the number of cores and constants as other dependencies
(`cacheprediction.py:264-267`, `517-520`). -/
abbrev Key := Kind × Nat × Consts

def key (k : Kind) (cores : Nat) (consts : Consts) : Key := (k, cores, match k with | .lc => [] | .sim => consts)

/-- The simulator kept by the machine, as sets of its caches, and the stored analyses. -/
structure St (R : Type) where
  memo : Option (List Nat)
  disk : Key → Option R

section
variable {R : Type} (levels : List Machine.Level) (numaCores : Nat) (ana : Kind → Consts → List Nat → R)

/-- `LayerConditionPredictor.__init__` up to the evaluation of the conditions (259-280) and
`CacheSimulationPredictor.__init__` (511-538). `ana` is the analysis for sets of the caches; that of the layer conditions is
symbolic. -/
def predict (k : Kind) (cores : Nat) (consts : Consts) (st : St R) : Option (R × St R) :=
  match st.disk (key k cores consts) with
  | some r => some (r, st)
  | none =>
    match Machine.getCachesim levels numaCores st.memo cores with
    | (_, none) => none
    | (memo, some sets) =>
      let r := ana k (key k cores consts).2.2 sets
      some (r, { memo := memo, disk := fun q => if q = key k cores consts then some r else st.disk q })

/-- What a model works with. -/
inductive Outcome (R : Type) where
  | prediction (r : R)
  | conditions (r : R) (heading : List Nat)
  | nothing

/-- `models/__init__.py:8-16`: the models with a predictor. -/
def predicting : List String := ["ECM", "ECMData", "RooflineFLOP", "RooflineASM", "RooflineIACA"]

/-- `kerncraft.py:399-402`: one model is created, analysed and reported. `LC` does not pass on the number of cores to its
predictor (`layer_condition.py:49`), but its report asks for the caches of all cores (59). -/
def model (k : Kind) (cores : Nat) (consts : Consts) (name : String) (st : St R) : Option (Outcome R × St R) :=
  if name ∈ predicting then (predict levels numaCores ana k cores consts st).map fun r => (.prediction r.1, r.2)
  else if name = "LC" then
    match predict levels numaCores ana .lc 1 consts st with
    | none => none
    | some (r, st') =>
      match Machine.getCachesim levels numaCores st'.memo cores with
      | (_, none) => none
      | (memo, some sets) => some (.conditions r sets, { st' with memo := memo })
  else some (.nothing, st)

/-- A step of a run: the constants and the model. -/
abbrev Step := Consts × String

/-- The steps of a run one after the other. -/
def steps (k : Kind) (cores : Nat) : List Step → St R → Option (List (Step × Outcome R) × St R)
  | [], st => some ([], st)
  | (consts, name) :: rest, st =>
    match model levels numaCores ana k cores consts name st with
    | none => none
    | some (o, st') => (steps k cores rest st').map fun r => (((consts, name), o) :: r.1, r.2)

/-- A call of kerncraft. -/
structure Run where
  cores : Nat
  predictor : Kind
  defines : List Consts
  pmodels : List String

/-- `kerncraft.py:304-425`: a new machine model, all combinations of constants, all models. -/
def run (r : Run) (disk : Key → Option R) : Option (List (Step × Outcome R) × (Key → Option R)) :=
  (steps levels numaCores ana r.predictor r.cores (r.defines.flatMap fun d => r.pmodels.map fun m => (d, m)) ⟨none, disk⟩).map
    fun x => (x.1, x.2.disk)

/-- Several calls, one after the other. -/
def runs : List Run → (Key → Option R) → Option (Key → Option R)
  | [], disk => some disk
  | r :: rs, disk => (run levels numaCores ana r disk).bind fun x => runs rs x.2

end

end Verif.CoreRuns
