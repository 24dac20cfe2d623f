import Verif.Model.Parse

/-!
Specification of the C subset used by kernels: values of integer expressions, executed iterations of loop nests,
operations and references of the loop body. Integers are unbounded.
-/

namespace Verif.CSem

open Verif.Parse

/-- Values of the integer variables. -/
abbrev Env := String → Int

/-! ### Integer expressions -/

/-- Value of a digit. -/
def digitVal (c : Char) : Option Nat :=
  if '0' ≤ c ∧ c ≤ '9' then some (c.toNat - '0'.toNat)
  else if 'a' ≤ c ∧ c ≤ 'f' then some (c.toNat - 'a'.toNat + 10)
  else if 'A' ≤ c ∧ c ≤ 'F' then some (c.toNat - 'A'.toNat + 10)
  else none

/-- Value of digits in a base. -/
def digits (base : Nat) : Nat → List Char → Option Nat
  | acc, [] => some acc
  | acc, c :: cs => match digitVal c with
    | none => none
    | some d => if d < base then digits base (base * acc + d) cs else none

/-- Value of an integer constant of C: hexadecimal, octal or decimal, with suffixes. -/
def constVal (t : List Char) : Option Nat :=
  match (t.reverse.dropWhile (fun c => c ∈ ['u', 'U', 'l', 'L'])).reverse with
  | '0' :: 'x' :: c :: r => digits 16 0 (c :: r)
  | '0' :: 'X' :: c :: r => digits 16 0 (c :: r)
  | '0' :: r => digits 8 0 r
  | c :: r => digits 10 0 (c :: r)
  | [] => none

/-- Value of an integer expression. -/
def eval (env : Env) : Expr → Option Int
  | .id n => some (env n)
  | .const t => (constVal t).map fun n : Nat => (n : Int)
  | .bin op l r => do
    let a ← eval env l
    let b ← eval env r
    if op = "+" then some (a + b)
    else if op = "-" then some (a - b)
    else if op = "*" then some (a * b)
    else if op = "/" then (if b = 0 then none else some (a.tdiv b))
    else if op = "%" then (if b = 0 then none else some (a.tmod b))
    else none
  | .un op e => do
    let a ← eval env e
    if op = "-" then some (-a) else if op = "+" then some a else none
  | _ => none

/-- Value of a comparison. -/
def condVal (env : Env) : Expr → Option Bool
  | .bin op l r => do
    let a ← eval env l
    let b ← eval env r
    if op = "<" then some (decide (a < b))
    else if op = "<=" then some (decide (a ≤ b))
    else if op = ">" then some (decide (a > b))
    else if op = ">=" then some (decide (a ≥ b))
    else if op = "!=" then some (decide (a ≠ b))
    else if op = "==" then some (decide (a = b))
    else none
  | _ => none

/-- Assignment to an integer variable. -/
def upd (env : Env) (n : String) (v : Int) : Env := fun x => if x = n then v else env x

/-- Effect of the third part of a loop head. -/
def nextEnv (env : Env) : Next → Option Env
  | .un op (.id n) =>
    if op = "++" ∨ op = "p++" then some (upd env n (env n + 1))
    else if op = "--" ∨ op = "p--" then some (upd env n (env n - 1))
    else none
  | .assign op (.id n) e => do
    let v ← eval env e
    if op = "+=" then some (upd env n (env n + v))
    else if op = "-=" then some (upd env n (env n - v))
    else if op = "=" then some (upd env n v)
    else none
  | _ => none

/-! ### Loops -/

/-- Iterations of a loop from the test of its condition to its end: `R` executes the body, the list collects the
environments at the beginning of the innermost body. -/
inductive Iter (cond : Expr) (next : Next) (R : Env → List Env → Env → Prop) : Env → List Env → Env → Prop
  | stop (env : Env) (h : condVal env cond = some false) : Iter cond next R env [] env
  | go (env env1 env2 env3 : Env) (t1 t2 : List Env) (h : condVal env cond = some true) (hb : R env t1 env1)
      (hn : nextEnv env1 next = some env2) (hr : Iter cond next R env2 t2 env3) : Iter cond next R env (t1 ++ t2) env3

/-- Execution of a loop with counter declared in its head. The counter is visible in the loop only. -/
def ForExec (h : Header) (R : Env → List Env → Env → Prop) (env : Env) (t : List Env) (env' : Env) : Prop :=
  ∃ name type init cond v env1, h.init = .decls [(name, type, some init)] ∧ h.cond = some cond ∧ eval env init = some v ∧
    Iter cond h.next R (upd env name v) t env1 ∧ env' = upd env1 name (env name)

mutual

/-- All assignments. -/
def assigns : Stmt → List (String × Expr × Expr)
  | .loop _ body => assigns body
  | .assign op lv rv => [(op, lv, rv)]
  | .compound items => assignsList items
  | _ => []

/-- All assignments of a block. -/
def assignsList : List Stmt → List (String × Expr × Expr)
  | [] => []
  | s :: rest => assigns s ++ assignsList rest

end

/-- `x` is assigned to. -/
def Assigned (s : Stmt) (x : String) : Prop := ∃ a ∈ assigns s, a.2.1 = .id x

/-- Execution of statements without loops: integer variables that are not assigned to keep their value. The values
that are assigned (floating point) are not modelled. -/
def LeafExec (s : Stmt) (env : Env) (t : List Env) (env' : Env) : Prop :=
  t = [env] ∧ ∀ x, ¬ Assigned s x → env' x = env x

mutual

/-- Execution of a loop nest. -/
def Exec : Stmt → Env → List Env → Env → Prop
  | .loop h body => ForExec h (Exec body)
  | .assign op lv rv => LeafExec (.assign op lv rv)
  | .compound items => ExecList items items
  | _ => fun _ _ _ => False

/-- Execution of a block: a loop after pragmas, or statements without loops. -/
def ExecList : List Stmt → List Stmt → Env → List Env → Env → Prop
  | .pragma :: rest, all => ExecList rest all
  | .loop h body :: [], _ => ForExec h (Exec body)
  | _, all => fun env t env' => (∀ s ∈ all, ∀ h b, s ≠ .loop h b) ∧ LeafExec (.compound all) env t env'

end

/-! ### Operations and references of the body -/

/-- Operators of an expression outside of subscripts. -/
def ops : Expr → List String
  | .bin op l r => op :: (ops l ++ ops r)
  | .un op e => op :: ops e
  | _ => []

/-- Assignment operators of C with the operation they contain. -/
def assignOps : List (String × List String) :=
  [("=", []), ("+=", ["+"]), ("-=", ["-"]), ("*=", ["*"]), ("/=", ["/"]), ("%=", ["%"]), ("<<=", ["<<"]), (">>=", [">>"]),
    ("&=", ["&"]), ("|=", ["|"]), ("^=", ["^"])]

/-- Operators of an assignment. -/
def assignmentOps (a : String × Expr × Expr) : List String := (assignOps.lookup a.1).getD [] ++ ops a.2.2

/-- Base name and subscripts from left to right. -/
def flat : Expr → Option (String × List Expr)
  | .id n => some (n, [])
  | .ref a s => (flat a).map fun r => (r.1, r.2 ++ [s])
  | _ => none

/-- References in an expression, from left to right; subscripts are not searched. -/
def reads : Expr → List Expr
  | .id n => [.id n]
  | .ref a s => [.ref a s]
  | .bin _ l r => reads l ++ reads r
  | .un _ e => reads e
  | _ => []

/-- References read by an assignment: a compound assignment reads its target. -/
def assignmentReads (a : String × Expr × Expr) : List Expr := (if a.1 = "=" then [] else [a.2.1]) ++ reads a.2.2

/-! ### Grammar of kernels -/

/-- Decimal digits. -/
def Number (t : List Char) : Prop := t ≠ [] ∧ ∀ c ∈ t, '0' ≤ c ∧ c ≤ '9'

/-- Sums, differences and products of variables and numbers. -/
inductive Arith : Expr → Prop
  | id (n) : Arith (.id n)
  | const (t) (h : Number t) : Arith (.const t)
  | bin (op l r) (h : op ∈ ["+", "-", "*"]) (hl : Arith l) (hr : Arith r) : Arith (.bin op l r)

/-- A variable or an array element with arithmetic subscripts. -/
inductive Place : Expr → Prop
  | id (n) : Place (.id n)
  | ref (a s) (ha : Place a) (hs : Arith s) : Place (.ref a s)

/-- Right hand sides. -/
inductive Rhs : Expr → Prop
  | place (e) (h : Place e) : Rhs e
  | const (t) : Rhs (.const t)
  | bin (op l r) (hl : Rhs l) (hr : Rhs r) : Rhs (.bin op l r)
  | un (op e) (h : op ∈ ["-", "--", "++", "p++", "p--"]) (he : Rhs e) : Rhs (.un op e)

/-- Third part of the head of a loop with counter `n`. -/
inductive Incr (n : String) : Next → Prop
  | pre : Incr n (.un "++" (.id n))
  | post : Incr n (.un "p++" (.id n))
  | add (t) (h : Number t) : Incr n (.assign "+=" (.id n) (.const t))

/-- `for (type n = e; n < f; ++n)`, with arithmetic `e` and `f`. -/
inductive Head : Header → Prop
  | mk (n type e f next) (he : Arith e) (hf : Arith f) (hn : Incr n next) :
      Head ⟨.decls [(n, type, some e)], some (.bin "<" (.id n) f), next⟩

/-- Pragma or assignment. -/
inductive Simple : Stmt → Prop
  | pragma : Simple .pragma
  | assign (op lv rv) (hl : Place lv) (hr : Rhs rv) : Simple (.assign op lv rv)

/-- Perfectly nested loops around assignments, with pragmas anywhere. -/
inductive Nest : Stmt → Prop
  | loop (h h' b') (hd : Head h) (hb : Nest (.loop h' b')) : Nest (.loop h (.loop h' b'))
  | assign (h op lv rv) (hd : Head h) (hs : Simple (.assign op lv rv)) : Nest (.loop h (.assign op lv rv))
  | block (h ps h' b') (hd : Head h) (hp : ∀ p ∈ ps, p = .pragma) (hb : Nest (.loop h' b')) :
      Nest (.loop h (.compound (ps ++ [.loop h' b'])))
  | leaf (h items) (hd : Head h) (hne : items ≠ []) (hs : ∀ s ∈ items, Simple s) : Nest (.loop h (.compound items))

/-- Scalars and arrays with arithmetic sizes of the given element type. -/
inductive DeclType (t : List String) : TypeAst → Prop
  | base : DeclType t (.base t)
  | array (dim elem) (hd : Arith dim) (he : DeclType t elem) : DeclType t (.array (some dim) elem)

/-- Declarations of variables that have a common type, a loop nest after pragmas, calls of `swap`. -/
inductive Kernel : List Stmt → Prop
  | mk (t : List String) (ds : List (String × TypeAst)) (ps : List Stmt) (h b) (swaps : List Stmt)
      (ht : t ∈ [["double", "_Complex"], ["float", "_Complex"], ["double"], ["float"]])
      (hd : ∀ d ∈ ds, DeclType t d.2) (hp : ∀ p ∈ ps, p = .pragma) (hn : Nest (.loop h b))
      (hs : ∀ s ∈ swaps, s = .call (some "swap")) :
      Kernel (ds.map (fun d => .decl d.1 d.2) ++ ps ++ [.loop h b] ++ swaps)

/-! ### Restriction of constants -/

/-- Constants are written in decimal without leading zero and without suffix. -/
def decimal (t : List Char) : Bool :=
  t.all (fun c => '0' ≤ c ∧ c ≤ '9') && (t == ['0'] || (t.head?.isSome && t.head? != some '0'))

/-- All constants of the expression are decimal. -/
def plain : Expr → Bool
  | .const t => decimal t
  | .bin _ l r => plain l && plain r
  | .un _ e => plain e
  | .ref a s => plain a && plain s
  | _ => true

end Verif.CSem
