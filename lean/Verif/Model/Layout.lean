import Verif.Model.Iteration
import Mathlib.Data.Int.Bitwise
import Mathlib.Data.List.Sort
import Mathlib.Data.String.Basic

/-!
Model of the array layout and flattening code of `kerncraft/kernel.py`:
`array_sizes`, `access_to_sympy`, `compile_global_offsets` and the AST rewriting
`transform_multidim_to_1d_decl` / `transform_multidim_to_1d_ref`.

Simplifications: sympy expressions are a small expression tree (`Sym`) evaluated over the integers;
constants have been substituted in declared extents; numpy `int64` arrays are unbounded integers.
-/

namespace Verif.Layout
open Verif.Iteration

/-- Subscript and extent expressions: the shapes `conv_ast_to_sym` (`kernel.py:954-973`) accepts.
Both the C AST and the sympy expression built from it are represented by this tree. -/
inductive Sym where
  | num (n : Int)
  | var (s : String)
  | add (a b : Sym)
  | sub (a b : Sym)
  | mul (a b : Sym)
deriving DecidableEq, Repr

/-- Value under an environment; `none` if a symbol is left over. -/
def Sym.eval (env : String → Option Int) : Sym → Option Int
  | .num n => some n
  | .var s => env s
  | .add a b => do some ((← a.eval env) + (← b.eval env))
  | .sub a b => do some ((← a.eval env) - (← b.eval env))
  | .mul a b => do some ((← a.eval env) * (← b.eval env))

/-- `expr.free_symbols` (syntactically; sympy may cancel symbols first). -/
def Sym.free : Sym → List String
  | .num _ => []
  | .var s => [s]
  | .add a b => a.free ++ b.free
  | .sub a b => a.free ++ b.free
  | .mul a b => a.free ++ b.free

/-- `kernel.py:316` `reduce(operator.mul, var_size, 1)`. -/
def arraySize (dims : List Int) : Int := dims.foldl (· * ·) 1

/-- `kernel.py:370-373`, evaluated: the loop over `enumerate(access)`. -/
def flattenFrom (dims : List Int) : Nat → Int → List Int → Int
  | _, acc, [] => acc
  | d, acc, a :: as => flattenFrom dims (d + 1) (acc + (dims.drop (d + 1)).foldl (· * ·) 1 * a) as

/-- `kernel.py:358-375` `access_to_sympy`, evaluated. -/
def flatten (dims access : List Int) : Int := flattenFrom dims 0 0 access

/-- `kernel.py:370-373`, symbolically. -/
def flattenSymFrom (dims : List Int) : Nat → Sym → List Sym → Sym
  | _, acc, [] => acc
  | d, acc, a :: as =>
    flattenSymFrom dims (d + 1) (.add acc (.mul (.num ((dims.drop (d + 1)).foldl (· * ·) 1)) a)) as

/-- A declared array (`self.variables[name] = (type, size)`), `elem` being
`self.datatypes_size[type]`. Scalars (`size is None`) are skipped by `array_sizes` and not listed. -/
structure Arr where
  name : String
  elem : Int
  dims : List Int
deriving DecidableEq, Repr

/-- `kernel.py:298-326` `array_sizes(in_bytes=True, subs_consts=True)` for one array. -/
def Arr.bytes (a : Arr) : Int := arraySize a.dims * a.elem

/-- `kernel.py:358-375` `access_to_sympy(var_name, access)`. -/
def accessToSympy (vars : List Arr) (name : String) (access : List Sym) : Except String Sym :=
  match vars.find? (fun v => v.name == name) with
  | none => .error "ValueError: No declaration of variable found."
  | some v => .ok (flattenSymFrom v.dims 0 (.num 0) access)

/-- `kernel.py:586`: `(int(size) + cl - 1) & ~(cl - 1)` on Python integers. -/
def roundUp (size cl : Int) : Int := Int.land (size + cl - 1) (Int.lnot (cl - 1))

/-- `kernel.py:578-587`: the loop assigning base offsets, in the given order. -/
def assignBases (spacing cl : Int) : Int → List Arr → List (String × Int)
  | _, [] => []
  | base, a :: as => (a.name, base) :: assignBases spacing cl (base + roundUp (a.bytes + spacing) cl) as

/-- `kernel.py:573-587`: base offsets with arrays in alphabetical order. -/
def baseOffsets (spacing cl : Int) (arrs : List Arr) : List (String × Int) :=
  assignBases spacing cl 0 (arrs.insertionSort (fun a b => a.name ≤ b.name))

/-- An access: array name and one expression per dimension. -/
structure Access where
  arr : String
  subs : List Sym
deriving DecidableEq, Repr

/-- `kernel.py:590-602` / `605-615`: the offset expressions of all accesses that depend on a loop
counter, array by array in declaration order. -/
def offsetExprs (vars : List Arr) (bases : List (String × Int)) (counters : List String)
    (accs : List Access) : Except String (List Sym) :=
  (vars.flatMap (fun v => (accs.filter (fun a => a.arr == v.name)).map (fun a => (v, a)))).foldrM
    (fun (va : Arr × Access) rest => do
      let e ← accessToSympy vars va.1.name va.2.subs
      if e.free.any (fun s => counters.contains s) then
        match bases.lookup va.1.name with
        | none => .error "KeyError"
        | some b => .ok (.add (.mul e (.num va.1.elem)) (.num b) :: rest)
      else .ok rest) []

/-- Environment of a lambdified offset expression: loop counters, then constants. -/
def mkEnv (counters : List String) (idx : List Int) (consts : String → Option Int) :
    String → Option Int :=
  fun s => match (counters.zip idx).lookup s with
    | some v => some v
    | none => consts s

/-- Evaluate all offset expressions in one iteration. -/
def evalAll (env : String → Option Int) : List Sym → Except String (List Int)
  | [] => .ok []
  | e :: es =>
    match e.eval env with
    | none => .error "TypeError: unresolved symbol"
    | some v => do .ok (v :: (← evalAll env es))

/-- Offsets of one iteration (`kernel.py:620-639`). -/
def iterOffsets (counters : List String) (loops : List Loop) (consts : String → Option Int)
    (exprs : List Sym) (it : Int) : Except String (List Int) :=
  match globalIteratorToIndices loops it with
  | none => .error "ZeroDivisionError"
  | some idx => evalAll (mkEnv counters idx consts) exprs

/-- `kernel.py:535-650` `compile_global_offsets(iteration, spacing)`: per iteration the pair of load
and store byte offsets. `counters` are the loop index names, outermost first, `cl` the cacheline size
(64 without a machine model, `kernel.py:582-585`). -/
def compileGlobalOffsets (vars : List Arr) (counters : List String) (loops : List Loop)
    (consts : String → Option Int) (sources dests : List Access) (spacing cl : Int)
    (iters : List Int) : Except String (List (List Int × List Int)) := do
  checkIterations loops iters
  let bases := baseOffsets spacing cl vars
  let loads ← offsetExprs vars bases counters sources
  let stores ← offsetExprs vars bases counters dests
  iters.mapM (fun it => do
    .ok ((← iterOffsets counters loops consts loads it), (← iterOffsets counters loops consts stores it)))

/-! ### AST rewriting to one dimension -/

/-- C declaration types: nested `ArrayDecl` or something else. -/
inductive CType where
  | base (name : String)
  | arr (dim : Sym) (inner : CType)
deriving DecidableEq, Repr

/-- `kernel.py:106-110`: collect the dimensions, outermost first. -/
def CType.dims : CType → List Sym
  | .base _ => []
  | .arr d t => d :: t.dims

/-- The innermost element type. -/
def CType.elemType : CType → CType
  | .base n => .base n
  | .arr _ t => t.elemType

/-- `functools.reduce(lambda l, r: BinaryOp(op, l, r), xs)`; `none` is the TypeError on `[]`. -/
def reduceSym (op : Sym → Sym → Sym) : List Sym → Option Sym
  | [] => none
  | x :: xs => some (xs.foldl op x)

/-- `kernel.py:98-117` `transform_multidim_to_1d_decl(decl)`: new type and collected dimensions. -/
def transformDecl (t : CType) : CType × List Sym :=
  match reduceSym .mul t.dims with
  | none => (t, t.dims)
  | some d => (.arr d t.elemType, t.dims)

/-- C references: an identifier subscripted zero or more times. -/
inductive CRef where
  | id (name : String)
  | sub (r : CRef) (s : Sym)
deriving DecidableEq, Repr

/-- `kernel.py:126-130`: subscripts, last one first. -/
def CRef.subsRev : CRef → List Sym
  | .id _ => []
  | .sub r s => s :: r.subsRev

/-- The referenced identifier. -/
def CRef.root : CRef → String
  | .id n => n
  | .sub r _ => r.root

/-- `kernel.py:132-139`: the list of summands. `dimsRev` is the reversed dimension list, so that the
slice `[-1:-i-1:-1]` is `dimsRev.take i`. -/
def summands (dimsRev : List Sym) : Nat → List Sym → Option (List Sym)
  | _, [] => some []
  | 0, d :: ds => do some (d :: (← summands dimsRev 1 ds))
  | i + 1, d :: ds => do
    let p ← reduceSym .mul (dimsRev.take (i + 1))
    some (.mul d p :: (← summands dimsRev (i + 2) ds))

/-- `kernel.py:120-143` `transform_multidim_to_1d_ref(aref, dimension_dict)`. -/
def transformRef (dimDict : String → Option (List Sym)) (r : CRef) : Except String CRef :=
  match r.subsRev with
  | [] => .error "TypeError: reduce() of empty sequence"
  | [s] => .ok (.sub (.id r.root) s)
  | ss =>
    match dimDict r.root with
    | none => .error "KeyError"
    | some dims =>
      match summands dims.reverse 0 ss with
      | none => .error "TypeError: reduce() of empty sequence"
      | some l =>
        match reduceSym .add l with
        | none => .error "TypeError: reduce() of empty sequence"
        | some e => .ok (.sub (.id r.root) e)

end Verif.Layout
