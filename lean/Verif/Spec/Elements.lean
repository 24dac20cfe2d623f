import Verif.Spec.CKernel

/-!
Elements of arrays that the execution of a loop nest reads and writes.
-/

namespace Verif.CSem

open Verif.Parse

/-- Array and values of the subscripts. -/
abbrev Element := String × List Int

/-- `e` denotes the element `x` of an array. -/
def Denotes (env : Env) (e : Expr) (x : Element) : Prop :=
  ∃ subs, flat e = some (x.1, subs) ∧ subs ≠ [] ∧ subs.mapM (eval env) = some x.2

/-- An iteration of the innermost loop reads or writes the element. -/
def Touches (s : Stmt) (t : List Env) (x : Element) : Prop :=
  ∃ env ∈ t, ∃ a ∈ assigns s, ∃ e ∈ a.2.1 :: assignmentReads a, Denotes env e x

/-- An iteration of the innermost loop assigns to the element. -/
def Writes (s : Stmt) (t : List Env) (x : Element) : Prop :=
  ∃ env ∈ t, ∃ a ∈ assigns s, Denotes env a.2.1 x

/-- Variables of an expression. -/
def vars : Expr → List String
  | .id n => [n]
  | .bin _ l r => vars l ++ vars r
  | .un _ e => vars e
  | .ref a s => vars a ++ vars s
  | _ => []

/-- Variables in the head of a loop. -/
def headVars (h : Header) : List String :=
  (match h.init with
    | .decls ds => ds.flatMap fun d => d.1 :: (d.2.2.map vars).getD []
    | .other => []) ++ (h.cond.map vars).getD [] ++
  match h.next with
  | .un _ e => vars e
  | .assign _ l r => vars l ++ vars r
  | .other => []

mutual
/-- Variables in the heads of all loops. -/
def boundVars : Stmt → List String
  | .loop h b => headVars h ++ boundVars b
  | .compound items => boundVarsList items
  | _ => []
/-- Variables in the heads of all loops. -/
def boundVarsList : List Stmt → List String
  | [] => []
  | s :: ss => boundVars s ++ boundVarsList ss
end

/-- Variables in subscripts. -/
def subscriptVars (s : Stmt) : List String :=
  (assigns s).flatMap fun a => (a.2.1 :: assignmentReads a).flatMap fun e => ((flat e).map fun r => r.2.flatMap vars).getD []

/-- `swap(a, b)` exchanges two pointers: the array that each name refers to. -/
def swapPtr (ptr : String → String) (p : String × String) : String → String :=
  fun n => if n = p.1 then ptr p.2 else if n = p.2 then ptr p.1 else ptr n

end Verif.CSem
