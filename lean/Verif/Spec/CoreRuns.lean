import Verif.Model.CoreRuns

/-! What C146 says. -/

namespace Verif.CoreRuns

variable {R : Type}

/-- The sets of the caches for a number of cores. -/
def setsAt (levels : List Machine.Level) (numaCores cores : Nat) : List Nat :=
  levels.map fun l => if 1 < l.coresPerGroup then l.sets / min cores numaCores else l.sets

/-- The analysis for a number of cores. -/
def right (levels : List Machine.Level) (numaCores : Nat) (ana : Kind → Consts → List Nat → R) (k : Kind) (cores : Nat)
    (consts : Consts) : R :=
  ana k (match k with | .lc => [] | .sim => consts) (setsAt levels numaCores cores)

/-- The steps of a run: each model for each choice of constants. -/
def stepsOf (r : Run) : List Step := r.defines.flatMap fun d => r.pmodels.map fun m => (d, m)

/-- The models that predict traffic (`models/__init__.py:8-16`). -/
def predicts : List String := ["ECM", "ECMData", "RooflineFLOP", "RooflineASM", "RooflineIACA"]

/-- All outcomes of a run are those for its number of cores. -/
def AllRight (levels : List Machine.Level) (numaCores : Nat) (ana : Kind → Consts → List Nat → R) (r : Run)
    (out : List (Step × Outcome R)) : Prop :=
  ∀ x ∈ out, match x.2 with
    | .prediction p => p = right levels numaCores ana r.predictor r.cores x.1.1
    | .conditions c heading => c = right levels numaCores ana .lc r.cores x.1.1 ∧ heading = setsAt levels numaCores r.cores
    | .nothing => x.1.2 ∉ predicts ∧ x.1.2 ≠ "LC"

/-- The run does not mix `LC` with models that predict, unless its number of cores makes no difference. -/
def Unmixed (levels : List Machine.Level) (numaCores : Nat) (r : Run) : Prop :=
  "LC" ∈ r.pmodels → (∃ m ∈ r.pmodels, m ∈ predicts) → setsAt levels numaCores r.cores = setsAt levels numaCores 1

end Verif.CoreRuns
