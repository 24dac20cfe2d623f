import Verif.Model.MainRun
import Verif.Model.ParallelInit

/-!
The generated program as a whole: initial values of scalars and arrays (`kernel.py:1353-1366`, 1275), and the parallel region, with the
sequence of calls from the execution of the template (`Verif.MainRun`), carried out by threads (`Verif.Parallel`).
-/

namespace Verif.Parallel

open Verif.CodeGen

/-- Python's module `random`: the state after `random.seed(n)`, and `random.uniform(1.0, 0.1)` with the state after it. -/
structure Random (S V : Type) where
  seed : Nat → S
  uniform : S → V × S

variable {S V : Type}

/-- A number for each name, one after the other. -/
def drawAll (g : Random S V) : List String → S → List (String × V) × S
  | [], s => ([], s)
  | x :: xs, s =>
    let r := drawAll g xs (g.uniform s).2
    ((x, (g.uniform s).1) :: r.1, r.2)

/-- Lines 1355-1364 `_build_scalar_initializations`, in the state that the generator has before. All scalars of a kernel are floating-point
numbers (`C129`), so that the branch for integers is never taken. -/
def scalarValues (g : Random S V) (items : List Item) (_before : S) : List (String × V) × S := drawAll g (scalarNames items) (g.seed 2342)

/-- Line 1275, in `_build_array_initializations`, which is called after the scalars are done (1550, 1564). -/
def elementValue (g : Random S V) (items : List Item) (before : S) : V := (g.uniform (scalarValues g items before).2).1

/-- `DECLARE_INIT_SCALARS` of the main program. -/
def declareScalars (l : List (String × V)) (m : Loc → V) : Loc → V := l.foldl (fun m p => put m (.main p.1) p.2) m

/-- The assignments between barriers, for the calls that each thread makes: `parts n` are the iterations of the threads in call `n`. -/
def eventPhases [Inhabited V] (items : List Item) (threads : Nat) (c : V) (initParts : List (List (List (Assign Name V))))
    (parts : Nat → List (List (List (Assign Name V)))) : Nat → List (Assign Loc V) → List MainRun.Event → List (List (List (Assign Loc V)))
  | _, before, [] => [List.replicate threads before]
  | n, before, .initArrays :: es =>
    (initParts.map fun p => before ++ p.flatten.flatMap (initAssign c)) :: eventPhases items threads c initParts parts n [] es
  | n, before, .kernel :: es =>
    ((parts n).map fun p => before ++ copyIn items ++ p.flatten.map compiled) :: eventPhases items threads c initParts parts (n + 1) (copyOut items) es
  | n, before, .markerInit :: es | n, before, .register :: es | n, before, .dummy :: es | n, before, .start :: es | n, before, .stop :: es
  | n, before, .close :: es => eventPhases items threads c initParts parts n before es

/-- The program, generated when the generator of random numbers has the state `before`, and run with `arg` as its first argument; `none` if
`orders` is not an order of the steps or the program has not ended after `fuel` steps of the main program. -/
def program [Inhabited V] (g : Random S V) (items : List Item) (threads : Nat) (initParts : List (List (List (Assign Name V))))
    (parts : Nat → List (List (List (Assign Name V)))) (before : S) (arg : List Char) (env : MainRun.Env) (fuel : Nat) (orders : List (List Nat))
    (m : Loc → V) : Option (Loc → V) :=
  match MainRun.exec arg fuel MainRun.template env with
  | none => none
  | some (_, t) =>
    runPhases orders (eventPhases items threads (elementValue g items before) initParts parts 0 [] t) (declareScalars (scalarValues g items before).1 m)

end Verif.Parallel
