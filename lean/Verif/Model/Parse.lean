import Verif.Model.Text

/-!
Model of the kernel parser of `kerncraft/kernel.py`, class `KernelCode`: `_process_code`, `conv_ast_to_sym`,
`_get_offsets`, `_get_basename`, `_p_for`, `_p_assignment`, `_p_sources` and `get_index_type`.

The syntax tree is that of pycparser, reduced to the node types the code distinguishes. Every other node type is `other`.
Sympy expressions are expression trees with an evaluation, not sympy's normal forms; sets of offsets are lists (only
membership is used). Any exception is an error value that names the exception class.
-/

namespace Verif.Parse

open Verif.Text

/-! ### Syntax trees -/

/-- Expressions: `ID`, `Constant` (with its text), `BinaryOp`, `UnaryOp`, `ArrayRef`, anything else. -/
inductive Expr where
  | id (name : String)
  | const (text : List Char)
  | bin (op : String) (left right : Expr)
  | un (op : String) (expr : Expr)
  | ref (name subscript : Expr)
  | other
deriving DecidableEq, Repr

/-- The `init` of a for loop: a `DeclList` of declarations (name, type names, initial value) or anything else. -/
inductive Init where
  | decls (ds : List (String × List String × Option Expr))
  | other
deriving DecidableEq, Repr

/-- The `next` of a for loop: `UnaryOp`, `Assignment` or anything else. -/
inductive Next where
  | un (op : String) (expr : Expr)
  | assign (op : String) (lvalue rvalue : Expr)
  | other
deriving DecidableEq, Repr

/-- Head of a for loop. -/
structure Header where
  init : Init
  cond : Option Expr
  next : Next
deriving DecidableEq, Repr

/-- The type of a declaration: `TypeDecl` of an `IdentifierType`, `ArrayDecl` (dimension may be missing), anything else. -/
inductive TypeAst where
  | base (names : List String)
  | array (dim : Option Expr) (elem : TypeAst)
  | other
deriving DecidableEq, Repr

/-- Statements. The name of a call is `none` if it is not a plain identifier. -/
inductive Stmt where
  | loop (h : Header) (body : Stmt)
  | assign (op : String) (lvalue rvalue : Expr)
  | compound (items : List Stmt)
  | pragma
  | decl (name : String) (type : TypeAst)
  | call (name : Option String)
  | other

/-! ### Expressions -/

/-- Exceptions. -/
inductive Err where
  | assertion
  | value
  | key
  | attribute
  | index
  | type
deriving DecidableEq, Repr

/-- Sympy expressions built by `conv_ast_to_sym`. -/
inductive Sym where
  | sym (name : String)
  | int (v : Int)
  | add (a b : Sym)
  | sub (a b : Sym)
  | mul (a b : Sym)
deriving DecidableEq, Repr

/-- Value of an expression. -/
def Sym.eval (env : String → Int) : Sym → Int
  | .sym n => env n
  | .int v => v
  | .add a b => a.eval env + b.eval env
  | .sub a b => a.eval env - b.eval env
  | .mul a b => a.eval env * b.eval env

/-- `sympy.Integer(text)` and `int(text)`. The lexer of pycparser yields no constants with a sign or underscores, so
only digits are accepted. -/
def toInt (text : List Char) : Except Err Int :=
  if text.all isDigit then
    match parseInt text with
    | some v => .ok v
    | none => .error .value
  else .error .value

/-- The operators of lines 965-969. -/
def symOp (op : String) : Option (Sym → Sym → Sym) :=
  if op = "*" then some .mul else if op = "+" then some .add else if op = "-" then some .sub else none

/-- Lines 954-973 `conv_ast_to_sym`. The last branch reads `op`, `left` and `right` of any node. -/
def conv : Expr → Except Err Sym
  | .id n => .ok (.sym n)
  | .const t => (toInt t).map .int
  | .bin op l r =>
    match symOp op with
    | none => .error .key
    | some f => do
      let a ← conv l
      let b ← conv r
      .ok (f a b)
  | .un op _ => match symOp op with
    | none => .error .key
    | some _ => .error .attribute
  | .ref _ _ => .error .attribute
  | .other => .error .attribute

/-- `type(e) in [ArrayRef, ID]` -/
def isRefOrId : Expr → Bool
  | .ref _ _ => true
  | .id _ => true
  | _ => false

/-- `type(e) in [ID, Constant, BinaryOp]` -/
def isSubscript : Expr → Bool
  | .id _ => true
  | .const _ => true
  | .bin _ _ _ => true
  | _ => false

/-- Lines 975-1000 `_get_offsets` of an `ArrayRef` before the reversal: last subscript first. -/
def offsetsIn : Expr → Except Err (List Sym)
  | .ref name sub =>
    if !isRefOrId name then .error .assertion
    else if !isSubscript sub then .error .assertion
    else do
      let s ← conv sub
      let rest ← match name with
        | .id _ => .ok []
        | _ => offsetsIn name
      .ok (s :: rest)
  | _ => .error .attribute

/-- Lines 975-1004 `_get_offsets` with `dim=0`. -/
def offsets : Expr → Except Err (Option (List Sym))
  | .id _ => .ok none
  | e => (offsetsIn e).map fun l => some l.reverse

/-- Lines 1006-1018 `_get_basename` (`basename` of an `ID` is its name in both of its cases). Where Python returns a node instead of a name, `_get_offsets` fails afterwards; here
it fails at once. -/
def basename : Expr → Except Err String
  | .id n => .ok n
  | .ref name _ => basename name
  | _ => .error .attribute

/-! ### Assignments -/

/-- What the parser records of the loop body. -/
structure Body where
  sources : List (String × Option (List Sym))
  destinations : List (String × Option (List Sym))
  flops : String → Option Nat

/-- `d[k] = v` -/
def setFlop (d : String → Option Nat) (k : String) (v : Nat) : String → Option Nat := fun x => if x = k then some v else d x

/-- `d.get(k, 0)` -/
def getFlop (d : String → Option Nat) (k : String) : Nat := (d k).getD 0

/-- `op[-1]` -/
def lastChar (op : String) : String := String.ofList (op.toList.drop (op.toList.length - 1))

/-- The unary operators of line 1133. -/
def unaryOps : List String := ["-", "--", "++", "p++", "p--"]

/-- Adds a reference to the sources, lines 1138-1140. -/
def addSource (b : Body) (e : Expr) : Except Err Body := do
  let name ← basename e
  let offs ← offsets e
  .ok { b with sources := b.sources ++ [(name, offs)] }

/-- Lines 1127-1151 `_p_sources`. -/
def pSources : Expr → Body → Except Err Body
  | .ref n s, b => addSource b (.ref n s)
  | .id n, b => addSource b (.id n)
  | .const _, b => .ok b
  | .bin op l r, b => do
    let b ← pSources l b
    let b ← pSources r b
    .ok { b with flops := setFlop b.flops op (getFlop b.flops op + 1) }
  | .un op e, b =>
    if !unaryOps.contains op then .error .assertion
    else do
      let b ← pSources e b
      .ok { b with flops := setFlop b.flops op (getFlop b.flops (lastChar op) + 1) }
  | .other, _ => .error .assertion

/-- `op.strip('=')` -/
def stripEq (op : String) : String :=
  String.ofList (((op.toList.dropWhile (· = '=')).reverse.dropWhile (· = '=')).reverse)

/-- Lines 1099-1125 `_p_assignment`. -/
def pAssignment (op : String) (lv rv : Expr) (b : Body) : Except Err Body :=
  if !isRefOrId lv then .error .assertion
  else do
    let b := if op ≠ "=" then { b with flops := setFlop b.flops (stripEq op) (getFlop b.flops (stripEq op) + 1) } else b
    let name ← basename lv
    let offs ← offsets lv
    let b := { b with destinations := b.destinations ++ [(name, offs)] }
    let b := if op ≠ "=" then { b with sources := b.sources ++ [(name, offs)] } else b
    pSources rv b

/-! ### Loops -/

/-- An entry of `_loop_stack`. -/
structure Entry where
  name : String
  start : Sym
  stop : Sym
  incr : Int
deriving DecidableEq, Repr

/-- Lines 1034-1035: types allowed as body of a loop. -/
def isBody : Stmt → Bool
  | .loop _ _ => true
  | .assign _ _ _ => true
  | .compound _ => true
  | _ => false

/-- `floop.cond.op in '<'` is a substring test; the only other substring is the empty one, which is no operator. -/
def inLt (op : String) : Bool := op = "<"

/-- `bop.op in '+-*'` is a substring test. -/
def inOps (op : String) : Bool := ["", "+", "-", "*", "+-", "-*", "+-*"].contains op

/-- Lines 1028-1031 and 1037-1047: the condition. -/
def pCond : Option Expr → Except Err (Expr × Expr)
  | none => .error .attribute
  | some (.bin op l r) =>
    if !inLt op then .error .assertion
    else match l with
      | .id _ => .ok (l, r)
      | _ => .error .assertion
  | some (.un op _) => if inLt op then .error .attribute else .error .assertion
  | some _ => .error .attribute

/-- Lines 1037-1047: the end of the loop. -/
def pStop : Expr → Except Err Sym
  | .id n => .ok (.sym n)
  | .const t => (toInt t).map .int
  | .bin op l r => if !inOps op then .error .assertion else conv (.bin op l r)
  | _ => .error .assertion

/-- Lines 1032-1033 and 1051-1073: the increment of the counter, if all of condition, initialisation and increment act
on the same one. Of the operators allowed in line 1033 an `Assignment` can only have `+=`. -/
def pNext (declName condName : String) : Next → Except Err Int
  | .other => .error .assertion
  | .assign op lv rv =>
    if op ≠ "+=" then .error .assertion
    else match lv, rv with
      | .id n, .const t => if n = condName ∧ condName = declName then toInt t else .error .assertion
      | _, _ => .error .assertion
  | .un op e =>
    if !["++", "p++", "+="].contains op then .error .assertion
    else match e with
      | .id n =>
        if n = condName ∧ condName = declName then
          if !["++", "p++", "--", "p--"].contains op then .error .assertion
          else .ok (if op = "++" ∨ op = "p++" then 1 else -1)
        else .error .assertion
      | _ => .error .assertion

/-- Lines 1020-1079: the head of a loop. The order of the checks differs from the code where it only decides which
exception is raised. -/
def pHeader (h : Header) : Except Err Entry :=
  match h.init with
  | .decls [(name, _, init)] => do
    let (l, r) ← pCond h.cond
    let stop ← pStop r
    let start ← match init with
      | none => .error .attribute
      | some e => conv e
    match l with
    | .id n => do
      let incr ← pNext name n h.next
      .ok ⟨name, start, stop, incr⟩
    | _ => .error .assertion
  | _ => .error .assertion

/-- What the parser has recorded. -/
structure St where
  loops : List Entry
  body : Body

/-- Lines 1090-1097: pragmas and assignments of the innermost loop. -/
def pLeaf : List Stmt → Body → Except Err Body
  | [], b => .ok b
  | .pragma :: rest, b => pLeaf rest b
  | .assign op lv rv :: rest, b => do
    let b ← pAssignment op lv rv b
    pLeaf rest b
  | _ :: _, _ => .error .value

/-- Lines 1020-1079 of `_p_for` up to the body: checks, and the new entry of the loop stack. -/
def enter (h : Header) (body : Stmt) (s : St) : Except Err St :=
  if !isBody body then .error .assertion
  else do
    let e ← pHeader h
    .ok { s with loops := s.loops ++ [e] }

mutual

/-- Lines 1081-1097: the body of a loop. The case of a for loop is the recursive call of `_p_for`. -/
def pBody : Stmt → St → Except Err St
  | .loop h body, s =>
    match enter h body s with
    | .error e => .error e
    | .ok s => pBody body s
  | .assign op lv rv, s => do
    let b ← pAssignment op lv rv s.body
    .ok { s with body := b }
  | .compound items, s =>
    match pNested items s with
    | some r => r
    | none =>
      -- an empty compound has `block_items` `None`
      if items.isEmpty then .error .type
      else do
        let b ← pLeaf items s.body
        .ok { s with body := b }
  | _, _ => .error .assertion

/-- Lines 1086-1088: pragmas and one final for loop; `none` if the block does not have this form. -/
def pNested : List Stmt → St → Option (Except Err St)
  | [], _ => none
  | .pragma :: rest, s => pNested rest s
  | .loop h body :: rest, s => match rest with
    | [] => some (match enter h body s with
      | .error e => .error e
      | .ok s => pBody body s)
    | _ :: _ => none
  | _ :: _, _ => none

end

/-- Lines 1020-1097 `_p_for`. -/
def pFor : Stmt → St → Except Err St
  | .loop h body, s => pBody (.loop h body) s
  | _, _ => .error .assertion

/-! ### Sections -/

/-- `type_ in self.datatypes_size`, lines 222-225 -/
def isDatatype (names : List String) : Bool :=
  [["double", "_Complex"], ["float", "_Complex"], ["double"], ["float"]].contains names

/-- Lines 934-940: dimensions and element type. -/
def arrayType : TypeAst → Except Err (List Sym × List String)
  | .array dim elem => do
    let d ← match dim with
      | none => .error .attribute
      | some e => conv e
    let (ds, t) ← arrayType elem
    .ok (d :: ds, t)
  | .base names => .ok ([], names)
  | .other => .error .attribute

/-- Lines 931-946: type and size of a declared variable. -/
def pDecl : TypeAst → Except Err (List String × Option (List Sym))
  | .array dim elem => do
    let (ds, t) ← arrayType (.array dim elem)
    .ok (t, some ds)
  | .base names => .ok (names, none)
  | .other => .error .attribute

/-- Variables with the common data type. -/
structure Vars where
  datatype : Option (List String)
  vars : List (String × List String × Option (List Sym))

/-- Lines 266-281 `set_variable`. A name declared twice keeps the later entry, in the place of the first. -/
def setVariable (v : Vars) (name : String) (type : List String) (size : Option (List Sym)) : Except Err Vars :=
  if !isDatatype type then .error .assertion
  else
    let put := fun vars : List (String × List String × Option (List Sym)) =>
      if vars.any (·.1 = name) then vars.map fun x => if x.1 = name then (name, type, size) else x
      else vars ++ [(name, type, size)]
    match v.datatype with
    | none => .ok ⟨some type, put v.vars⟩
    | some t => if type = t then .ok ⟨some t, put v.vars⟩ else .error .assertion

/-- Lines 931-946: all declarations. -/
def pDecls : List Stmt → Vars → Except Err Vars
  | [], v => .ok v
  | .decl name t :: rest, v => do
    let (type, size) ← pDecl t
    let v ← setVariable v name type size
    pDecls rest v
  | _ :: _, _ => .error .attribute

/-- The sections of the code. -/
inductive Section where
  | declarations
  | loopnest
  | swaps
deriving DecidableEq

/-- Statements by section. -/
structure Sections where
  decls : List Stmt
  nest : List Stmt
  swaps : List Stmt

/-- Lines 907-929: one statement. -/
def sectionStep (sec : Section) (acc : Sections) (s : Stmt) : Except Err (Section × Sections) :=
  let nestStep : Except Err (Section × Sections) := match s with
    | .pragma => .ok (.loopnest, { acc with nest := acc.nest ++ [s] })
    | .loop _ _ => .ok (.swaps, { acc with nest := acc.nest ++ [s] })
    | _ => .error .value
  match sec with
  | .declarations => match s with
    | .decl _ _ => .ok (.declarations, { acc with decls := acc.decls ++ [s] })
    | _ => nestStep
  | .loopnest => nestStep
  | .swaps => match s with
    | .call (some n) => if n = "swap" then .ok (.swaps, { acc with swaps := acc.swaps ++ [s] }) else .error .value
    | .call none => .error .attribute
    | _ => .error .value

/-- Lines 907-929: the loop over all statements. -/
def sections : List Stmt → Section → Sections → Except Err Sections
  | [], _, acc => .ok acc
  | s :: rest, sec, acc => do
    let (sec, acc) ← sectionStep sec acc s
    sections rest sec acc

/-- Result of `_process_code`. -/
structure Result where
  vars : Vars
  st : St
  swaps : List Stmt

/-- Lines 893-952 `_process_code`. For an empty block `block_items` is `None`. -/
def processCode (items : List Stmt) : Except Err Result :=
  if items.isEmpty then .error .type
  else do
    let secs ← sections items .declarations ⟨[], [], []⟩
    let vars ← pDecls secs.decls ⟨none, []⟩
    match secs.nest.getLast? with
    | none => .error .index
    | some nest => do
      let st ← pFor nest ⟨[], ⟨[], [], fun _ => none⟩⟩
      .ok ⟨vars, st, secs.swaps⟩

/-! ### Index types -/

/-- `s.init.decls[0].type.type.names` -/
def declType (h : Header) : Except Err (List String) :=
  match h.init with
  | .decls ((_, t, _) :: _) => .ok t
  | .decls [] => .error .index
  | .other => .error .attribute

/-- Lines 1172-1175: type of a loop and of the loop below it. -/
def combineType (h : Header) (other : Except Err (Option (List String))) : Except Err (Option (List String)) := do
  let other ← other
  let t ← declType h
  match other with
  | none => .ok (some t)
  | some o => if t = o then .ok (some t) else .error .value

mutual

/-- Lines 1153-1175 `get_index_type` of a for loop or a block; the result is `None` if there is no loop. Line 1166
calls it for a for loop or a block only. -/
def indexType : Stmt → Except Err (Option (List String))
  | .loop h body => combineType h (indexType body)
  | .compound items => indexTypes items
  | _ => .ok none

/-- The loop over the statements of a block: only the first for loop counts. -/
def indexTypes : List Stmt → Except Err (Option (List String))
  | [] => .ok none
  | .loop h body :: _ => combineType h (indexType body)
  | _ :: rest => indexTypes rest

end

end Verif.Parse
