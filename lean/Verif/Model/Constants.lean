import Verif.Model.Layout

/-!
Model of the constants table and of the memoised substitution of `kerncraft/kernel.py`:
`set_constant` (248-264), `clear_state` (283-288), `subs_consts` (290-296).

Simplification: a substituted expression is not simplified further (sympy would fold `2*3`).
-/

namespace Verif.Constants
open Verif.Layout

/-- A constant's key: `symbol_pos_int(name)` (`kernel.py:53-57`) or a caller supplied
`sympy.Symbol`, whose assumptions (`kind`) distinguish symbols of the same name. -/
structure Key where
  name : String
  kind : Nat
deriving DecidableEq, Repr

/-- `symbol_pos_int(name)`. -/
def posInt (name : String) : Key := ⟨name, 0⟩

/-- The `name` argument of `set_constant`. -/
inductive NameArg where
  | str (s : String)
  | symbol (k : Key)
  | other
deriving DecidableEq, Repr

/-- The `value` argument; `other` is anything whose type is not exactly `int` (also `bool`). -/
inductive ValArg where
  | int (n : Int)
  | other
deriving DecidableEq, Repr

abbrev Table := List (Key × Int)

/-- `d[k] = v` on an insertion-ordered dictionary. -/
def dictSet (k : Key) (v : Int) : Table → Table
  | [] => [(k, v)]
  | (k', v') :: t => if k' = k then (k', v) :: t else (k', v') :: dictSet k v t

/-- `kernel.py:263-264`: `OrderedDict(sorted(items, key=lambda i: str(i[0])))` (stable sort). -/
def sortTable (t : Table) : Table := t.insertionSort (fun a b => a.1.name ≤ b.1.name)

/-- `kernel.py:248-264` `set_constant(name, value)`. -/
def setConstant (t : Table) (name : NameArg) (value : ValArg) : Except String Table :=
  match name, value with
  | .other, _ => .error "AssertionError: constant name needs to be of type str"
  | _, .other => .error "AssertionError: constant value needs to be of type int"
  | .symbol k, .int v => .ok (sortTable (dictSet k v t))
  | .str s, .int v => .ok (sortTable (dictSet (posInt s) v t))

/-- A sequence of calls; a call that raises leaves the table as it was. -/
def setMany (t : Table) : List (NameArg × ValArg) → Table
  | [] => t
  | c :: cs =>
    match setConstant t c.1 c.2 with
    | .error _ => setMany t cs
    | .ok t' => setMany t' cs

/-- `expr.subs(self.constants)`: names in expressions are positive integer symbols. -/
def substSym (t : Table) : Sym → Sym
  | .num n => .num n
  | .var s => match t.lookup (posInt s) with
    | some v => .num v
    | none => .var s
  | .add a b => .add (substSym t a) (substSym t b)
  | .sub a b => .sub (substSym t a) (substSym t b)
  | .mul a b => .mul (substSym t a) (substSym t b)

/-- Kernel state seen by `subs_consts`: constants and the memo table of `lru_cache(40)`, most recently
used entry first. -/
structure KState where
  consts : Table
  cache : List (Sym × Sym)
deriving DecidableEq, Repr

/-- `kernel.py:290-296` `subs_consts(expr)` under `@lru_cache(40)`: a hit returns the memoised result
and makes it most recent, a miss computes, stores and drops the oldest entry beyond 40. -/
def subsConsts (s : KState) (e : Sym) : Sym × KState :=
  match s.cache.lookup e with
  | some r => (r, { s with cache := (e, r) :: s.cache.filter (fun p => p.1 ≠ e) })
  | none =>
    let r := substSym s.consts e
    (r, { s with cache := ((e, r) :: s.cache).take 40 })

/-- Calls on a kernel object. `foreign k`: other kernel objects share the memo table (with different
keys) and may push all but the `k` most recent entries out. -/
inductive Call where
  | set (name : NameArg) (value : ValArg)
  | clear
  | subs (e : Sym)
  | foreign (k : Nat)
deriving DecidableEq, Repr

/-- Effect of one call. -/
def step (s : KState) : Call → KState
  | .set n v => match setConstant s.consts n v with
    | .error _ => s
    | .ok t => { s with consts := t }
  | .clear => ⟨[], []⟩
  | .subs e => (subsConsts s e).2
  | .foreign k => { s with cache := s.cache.take k }

/-- State after a history, starting from a freshly constructed kernel (`kernel.py:239`). -/
def runCalls (h : List Call) : KState := h.foldl step ⟨[], []⟩

end Verif.Constants
