import Verif.Spec.Symbols

/-!
Model of the search for constants in `kerncraft/kerncraft.py:336-348`. Expressions are not simplified: in sympy symbols may cancel. Sets are lists.
-/

namespace Verif.Required

open Verif.Symbols

/-- A loop of the stack: index, start, stop and increment. -/
structure Loop where
  index : String
  start : Expr
  stop : Expr
  incr : Expr

/-- What a kernel is made of (`kernel.py:227-238`): sizes of variables (`none` for scalars), loops, and the subscripts of the accesses by variable (`none`
for scalars). -/
structure Kernel where
  variables : List (String × Option (List Expr))
  loops : List Loop
  sources : List (String × List (Option (List Expr)))
  destinations : List (String × List (Option (List Expr)))

/-- `free_symbols` -/
def free : Expr → List String
  | .num _ => []
  | .sym s => [s]
  | .neg a => free a
  | .add a b => free a ++ free b
  | .mul a b => free a ++ free b

/-- Lines 338-343: lists of expressions. -/
def lists (k : Kernel) : List (List Expr) :=
  k.variables.filterMap (·.2) ++ k.loops.map (fun l => [l.start, l.stop]) ++ k.sources.flatMap (fun a => a.2.filterMap id) ++
    k.destinations.flatMap (fun a => a.2.filterMap id)

/-- Lines 336, 344-348: the symbols of these without the loop indices. -/
def required (k : Kernel) : List String :=
  ((lists k).flatten.flatMap free).filter fun s => !(k.loops.map (·.index)).contains s

end Verif.Required
