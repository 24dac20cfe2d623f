import Verif.Model.Parallel

/-!
The parallel region of the main program from its beginning (`kernel.py:1485-1512`): the initialisation of the arrays
(`_build_array_initializations` 1260-1285, where the loop is shared between threads as well and ends with a barrier, C112), then the
calls of the kernel function. The calls of `dummy` (1295) never happen, as `var_false` is zero. For the sequential meaning of the
initialisation see C95.
-/

namespace Verif.Parallel

open Verif.CodeGen

variable {V : Type}

/-- Lines 1278-1283: one assignment of the constant to each array reference of an assignment of the kernel. -/
def initAssign (c : V) (a : Assign Name V) : List (Assign Loc V) :=
  a.places.filterMap fun
    | .elem b i => some ⟨[], .elem b i, fun _ => c⟩
    | .scalar _ => none

/-- The initialisation of each thread, for its iterations. -/
def initPhase (c : V) (parts : List (List (List (Assign Name V)))) : List (List (Assign Loc V)) :=
  parts.map fun p => p.flatten.flatMap (initAssign c)

/-- Lines 1485-1512: the whole parallel region. -/
def region [Inhabited V] (c : V) (items : List Item) (threads : Nat) (initParts : List (List (List (Assign Name V))))
    (calls : List (List (List (List (Assign Name V))))) (orders : List (List Nat)) (m : Loc → V) : Option (Loc → V) :=
  runPhases orders (initPhase c initParts :: phases items threads [] calls) m

end Verif.Parallel
