import Verif.Model.Paths

/-!
Model of the reuse of cache predictions: the constructors of `LayerConditionPredictor` and `CacheSimulationPredictor`
(`kerncraft/cacheprediction.py:259-283`, `511-538`), `get_intermediate_location` without machine and compiler, and
`_check_freshness` (`kernel.py:799-808`). The analysis is a parameter that depends on kernel, kerncraft, machine and on the
dependencies in the path (cores and, for the simulation, constants). Every event takes place at a time of its own, files
get the time at which they are written. Locking is described in `Locking`; intermediate files are kept.
-/

namespace Verif.PredCache

open Verif.Paths

/-- Files with their modification times. Machine files by path, analysis results by location. -/
structure World (K V M R : Type) where
  now : Nat
  kernel : K × Nat
  code : V × Nat
  machine : List Char → M × Nat
  disk : List Char → Option (R × Nat)

/-- What may happen to the files. -/
inductive Event (K V M : Type) where
  | kernel (k : K)
  | code (v : V)
  | machine (path : List Char) (m : M)
  | predict (path : List Char) (deps : List (List Char)) (name : List Char)

variable {K V M R : Type}

/-- `kernel.py:804-806` -/
def fresh (w : World K V M R) (path : List Char) (t : Nat) : Bool :=
  decide ((w.machine path).2 < t) && decide (w.code.2 < t) && decide (w.kernel.2 < t)

/-- Result of a prediction for the machine file `path`: the stored one if it is fresh, otherwise a new one. The second
component tells whether it has to be stored. -/
def predict (cwd file : List Char) (ana : K → V → M → List (List Char) → List Char → R) (w : World K V M R)
    (path : List Char) (deps : List (List Char)) (name : List Char) : R × Bool :=
  let new := ana w.kernel.1 w.code.1 (w.machine path).1 deps name
  match w.disk (location cwd file none deps name) with
  | some (r, t) => if fresh w path t then (r, false) else (new, true)
  | none => (new, true)

/-- Effect of an event. -/
def step (cwd file : List Char) (ana : K → V → M → List (List Char) → List Char → R) (w : World K V M R) :
    Event K V M → World K V M R
  | .kernel k => { w with now := w.now + 1, kernel := (k, w.now) }
  | .code v => { w with now := w.now + 1, code := (v, w.now) }
  | .machine p m => { w with now := w.now + 1, machine := fun q => if q = p then (m, w.now) else w.machine q }
  | .predict p deps name =>
    let r := predict cwd file ana w p deps name
    { w with now := w.now + 1, disk := fun q => if r.2 ∧ q = location cwd file none deps name then some (r.1, w.now)
        else w.disk q }

/-- Files after a history. -/
def run (cwd file : List Char) (ana : K → V → M → List (List Char) → List Char → R) (w : World K V M R)
    (h : List (Event K V M)) : World K V M R := h.foldl (step cwd file ana) w

/-- Nothing has been stored yet, all files are from the past. -/
def Start (w : World K V M R) : Prop :=
  (∀ q, w.disk q = none) ∧ w.kernel.2 < w.now ∧ w.code.2 < w.now ∧ ∀ p, (w.machine p).2 < w.now

end Verif.PredCache
