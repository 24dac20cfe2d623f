import Verif.Model.Datatype
import Verif.Spec.Description

/-!
Kernels from descriptions (`kernel.py:60-76`, `1834-1871`). Sympy's names are a parameter, expressions are not simplified. Texts are given as trees (see
`Spec/Description`). Which of several errors is raised first is not modelled.
-/

namespace Verif.Description

open Verif.Datatype

/-- What sympy's own names are: numbers such as `pi`, and functions and other things that are no operands, such as `beta`. -/
inductive Global where
  | number
  | callable

/-- The names of `from sympy import *`. -/
abbrev Namespace := String → Option Global

/-- Python's `eval` in `parse_expr(s, local_dict)`: names in `local_dict` are symbols of positive integers, then sympy's names are looked up, and other names
become symbols without assumptions. -/
def parseExpr (ns : Namespace) (loc : List String) : Tree Leaf → Except String (Tree Atom)
  | .leaf (.num n) => .ok (.leaf (.num n))
  | .leaf (.name s) =>
    if s ∈ loc then .ok (.leaf (.sym s true))
    else match ns s with
      | some .number => .ok (.leaf (.const s))
      | some .callable => .error "TypeError"
      | none => .ok (.leaf (.sym s false))
  | .neg t => match parseExpr ns loc t with
    | .ok e => .ok (.neg e)
    | .error e => .error e
  | .bin op a b => match parseExpr ns loc a, parseExpr ns loc b with
    | .ok x, .ok y => .ok (.bin op x y)
    | .error e, _ => .error e
    | _, .error e => .error e

/-- `free_symbols`, their names -/
def freeNames : Tree Atom → List String
  | .leaf (.sym s _) => [s]
  | .leaf _ => []
  | .neg t => freeNames t
  | .bin _ a b => freeNames a ++ freeNames b

/-- Names in a text that are a single letter: keys of `local_dict` (69). Its other keys are letters within names, which are not looked up. -/
def letters : Tree Leaf → List String
  | .leaf (.name s) => if s.toList.length = 1 ∧ s.toList.all Char.isAlpha then [s] else []
  | .leaf _ => []
  | .neg t => letters t
  | .bin _ a b => letters a ++ letters b

/-- Lines 69-76 -/
def readText (ns : Namespace) (t : Tree Leaf) : Except String (Tree Atom) :=
  match parseExpr ns (letters t) t with
  | .error e => .error e
  | .ok preliminary => parseExpr ns (letters t ++ freeNames preliminary) t

mutual
/-- `string_to_sympy` (60-76) -/
def toSympy (ns : Namespace) : Yaml → Except String Val
  | .int z => .ok (.expr (.leaf (.num z)))
  | .list l => match toSympyAll ns l with
    | .ok l' => .ok (.tuple l')
    | .error e => .error e
  | .null => .ok .none
  | .text t => match readText ns t with
    | .ok e => .ok (.expr e)
    | .error e => .error e
  | .other => .error "TypeError"

def toSympyAll (ns : Namespace) : List Yaml → Except String (List Val)
  | [] => .ok []
  | y :: l => match toSympy ns y, toSympyAll ns l with
    | .ok v, .ok l' => .ok (v :: l')
    | .error e, _ => .error e
    | _, .error e => .error e
end

/-- Lines 1843-1847 -/
def readLoop (ns : Namespace) (l : String × Yaml × Yaml × Yaml) : Except String (String × Val × Val × Val) :=
  match toSympy ns l.2.1, toSympy ns l.2.2.1, toSympy ns l.2.2.2 with
  | .ok a, .ok b, .ok c => .ok (l.1, a, b, c)
  | .error e, _, _ => .error e
  | _, .error e, _ => .error e
  | _, _, .error e => .error e

/-- Line 1851 and the assertion on the size (280). -/
def readArray (ns : Namespace) (a : String × List String × Yaml) : Except String (String × List String × Option (List Val)) :=
  match toSympy ns a.2.2 with
  | .error e => .error e
  | .ok (.tuple l) => .ok (a.1, a.2.1, some l)
  | .ok .none => .ok (a.1, a.2.1, none)
  | .ok (.expr _) => .error "AssertionError: size has to be defined as tuple or None"

/-- Lines 1857-1866; a set is a list without duplicates. -/
def readAccesses (ns : Namespace) (a : String × List Yaml) : Except String (String × List Val) :=
  match toSympyAll ns a.2 with
  | .error e => .error e
  | .ok l => .ok (a.1, l.dedup)

/-- Lines 1842-1871 -/
def read (ns : Namespace) (d : Desc) : Except String Kernel := do
  let loops ← d.loops.mapM (readLoop ns)
  let decls ← d.arrays.mapM (readArray ns)
  let s ← describe decls
  let sources ← d.sources.mapM (readAccesses ns)
  let destinations ← d.destinations.mapM (readAccesses ns)
  return ⟨loops, s.datatype, s.vars, sources, destinations⟩

end Verif.Description
