import Verif.Model.Layout

/-!
The references that the layer conditions are derived from (`kernel.py:430-450` `compile_sympy_accesses`). Those of the cache simulation are in `Layout`
(`compileGlobalOffsets`).
-/

namespace Verif.Refs

open Verif.Layout

/-- A variable: name and extents, `none` for a scalar. -/
abbrev Var := String × Option (List Int)

/-- `access_to_sympy` (`kernel.py:358-375`) of a declared variable; slicing the extents of a scalar is a `TypeError`, which happens if there is a subscript. -/
def flat (v : Var) (access : List Sym) : Except String Sym :=
  match v.2, access with
  | some dims, _ => .ok (flattenSymFrom dims 0 (.num 0) access)
  | none, [] => .ok (.num 0)
  | none, _ :: _ => .error "TypeError: 'NoneType' object is not subscriptable"

/-- `kernel.py:440-448`, the loop over the accesses of one variable; `None` is an access to a scalar and skipped. -/
def flats (v : Var) : List (Option (List Sym)) → Except String (List Sym)
  | [] => .ok []
  | none :: as => flats v as
  | some a :: as => do
    let e ← flat v a
    let es ← flats v as
    .ok (e :: es)

/-- `kernel.py:430-450`; variables without accesses are not in the dictionary, which is the same as an empty list in a `defaultdict`. -/
def sympyAccesses (sources destinations : List (String × List (Option (List Sym)))) : List Var → Except String (List (String × List Sym))
  | [] => .ok []
  | v :: vars => do
    let r ← flats v ((sources.lookup v.1).getD [])
    let w ← flats v ((destinations.lookup v.1).getD [])
    let rest ← sympyAccesses sources destinations vars
    .ok ((v.1, r ++ w) :: rest)

end Verif.Refs
