import Verif.Model.Parse

/-!
Model of the initialisation of arrays in `KernelCode` (`kerncraft/kernel.py`): `find_node_type` (179-189) for array references,
`get_kernel_loop_nest` (1211-1229), `_find_inner_most_loop` (1250-1258) and `_build_array_initializations` (1260-1285).

Nodes that are changed in place are values; the position of the innermost loop is a function that puts a new body there.
Strings of pragmas are not modelled: an argument tells if one contains `omp`. References keep all subscripts; both kernel
and initialisation go through the same transformation to one subscript (C09).
-/

namespace Verif.ArrayInit

open Verif.Parse

/-- `find_node_type(_, ArrayRef)` for expressions; subscripts are not searched. -/
def exprRefs : Expr → List Expr
  | .ref a s => [.ref a s]
  | .bin _ l r => exprRefs l ++ exprRefs r
  | .un _ e => exprRefs e
  | _ => []

mutual
/-- `find_node_type(_, ArrayRef)` for statements. Heads of loops, declarations and arguments of calls are not searched; the
body of an innermost loop that the parser accepts has none of them. -/
def stmtRefs : Stmt → List Expr
  | .loop _ b => stmtRefs b
  | .assign _ lv rv => exprRefs lv ++ exprRefs rv
  | .compound items => listRefs items
  | _ => []
/-- `find_node_type(_, ArrayRef)` for lists. -/
def listRefs : List Stmt → List Expr
  | [] => []
  | s :: ss => stmtRefs s ++ listRefs ss
end

/-- Lines 1215-1217: loops, pragmas and calls. -/
def inNest : Stmt → Bool
  | .loop _ _ => true
  | .pragma => true
  | .call _ => true
  | _ => false

/-- Lines 1211-1229 `get_kernel_loop_nest`; `omp`: there is a pragma with `omp`. -/
def loopNest (omp : Bool) (items : List Stmt) : Except Err (List Stmt) :=
  match items.filter inNest with
  | [] => .error .assertion
  | l => .ok (if omp then l else .pragma :: l)

/-- The body of the loop that was found, and the surroundings with another body. -/
abbrev Hole (α : Type) := Stmt × (Stmt → α)

mutual
/-- Lines 1253-1258 for a loop that was found: the result of the recursion, or itself. -/
def inLoop (h : Header) : Stmt → Hole Stmt
  | .loop h' b => ((inLoop h' b).1, fun y => .loop h ((inLoop h' b).2 y))
  | .compound items => match inItems items with
    | some (_, x, f) => (x, fun y => .loop h (.compound (f y)))
    | none => (.compound items, .loop h)
  | b => (b, .loop h)

/-- Lines 1252-1258 over a list; the flag tells if a loop itself is an item, which ends the search, also if a loop has been
found inside of an earlier item. -/
def inItems : List Stmt → Option (Bool × Hole (List Stmt))
  | [] => none
  | .loop h b :: ss => some (true, (inLoop h b).1, fun y => (inLoop h b).2 y :: ss)
  | .compound items :: ss => match inItems ss with
    | some (true, x, f) => some (true, x, fun y => .compound items :: f y)
    | later => match inItems items with
      | some (_, x, f) => some (false, x, fun y => .compound (f y) :: ss)
      | none => later.map fun r => (r.1, r.2.1, fun y => .compound items :: r.2.2 y)
  | s :: ss => (inItems ss).map fun r => (r.1, r.2.1, fun y => s :: r.2.2 y)
end

/-- Lines 1277-1283: one assignment per reference. -/
def assignments (value : List Char) (body : Stmt) : Stmt :=
  .compound ((stmtRefs body).map fun r => .assign "=" r (.const value))

/-- Lines 1260-1285 `_build_array_initializations`; `value` is the text of the random number. -/
def initCode (omp : Bool) (value : List Char) (items : List Stmt) : Except Err (List Stmt) := do
  let nest ← loopNest omp items
  match inItems nest with
  | some (_, body, f) => .ok (f (assignments value body))
  | none => .error .attribute

end Verif.ArrayInit
