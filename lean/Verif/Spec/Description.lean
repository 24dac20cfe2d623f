import Mathlib.Data.List.Forall2

/-!
Specification of C130: descriptions of kernels and their meaning. Texts are given by the tree that Python parses them to; powers and calls of functions
do not occur.
-/

namespace Verif.Description

inductive Op where
  | add
  | sub
  | mul
  | div
deriving DecidableEq

/-- Expressions over leaves of any kind. -/
inductive Tree (α : Type) where
  | leaf (a : α)
  | neg (t : Tree α)
  | bin (op : Op) (a b : Tree α)
deriving DecidableEq

/-- The same expression with other leaves. -/
def Tree.map {α β : Type} (f : α → β) : Tree α → Tree β
  | .leaf a => .leaf (f a)
  | .neg t => .neg (t.map f)
  | .bin op a b => .bin op (a.map f) (b.map f)

/-- Leaves. -/
inductive Tree.Mem {α : Type} (x : α) : Tree α → Prop where
  | leaf : Tree.Mem x (.leaf x)
  | neg {t} : Tree.Mem x t → Tree.Mem x (.neg t)
  | left {op a b} : Tree.Mem x a → Tree.Mem x (.bin op a b)
  | right {op a b} : Tree.Mem x b → Tree.Mem x (.bin op a b)

/-- Leaves of texts. -/
inductive Leaf where
  | num (n : Nat)
  | name (s : String)
deriving DecidableEq

/-- Leaves of sympy's expressions: numbers, symbols (positive integers or without assumptions), and numbers that have a name in sympy, such as pi. -/
inductive Atom where
  | num (z : Int)
  | sym (s : String) (positiveInteger : Bool)
  | const (s : String)
deriving DecidableEq

/-- Values of a description. `other` is a number with a point or a mapping. -/
inductive Yaml where
  | int (z : Int)
  | text (t : Tree Leaf)
  | null
  | other
  | list (l : List Yaml)

/-- Expressions, tuples and None. -/
inductive Val where
  | expr (e : Tree Atom)
  | none
  | tuple (l : List Val)

mutual
/-- Equality of values is decidable. -/
def Val.decEq : (a b : Val) → Decidable (a = b)
  | .expr e, .expr f => decidable_of_iff (e = f) (by simp)
  | .none, .none => isTrue rfl
  | .tuple l, .tuple m => @decidable_of_iff _ (l = m) (by simp) (Val.decEqAll l m)
  | .expr _, .none => isFalse (by simp)
  | .expr _, .tuple _ => isFalse (by simp)
  | .none, .expr _ => isFalse (by simp)
  | .none, .tuple _ => isFalse (by simp)
  | .tuple _, .expr _ => isFalse (by simp)
  | .tuple _, .none => isFalse (by simp)

def Val.decEqAll : (a b : List Val) → Decidable (a = b)
  | [], [] => isTrue rfl
  | a :: l, b :: m => @decidable_of_iff _ (a = b ∧ l = m) (by simp) (@instDecidableAnd _ _ (Val.decEq a b) (Val.decEqAll l m))
  | [], _ :: _ => isFalse (by simp)
  | _ :: _, [] => isFalse (by simp)
end

instance : DecidableEq Val := Val.decEq

/-- A name stands for a positive integer. -/
def Leaf.atom : Leaf → Atom
  | .num n => .num n
  | .name s => .sym s true

mutual
/-- What a value stands for. -/
inductive Means : Yaml → Val → Prop where
  | int (z : Int) : Means (.int z) (.expr (.leaf (.num z)))
  | text (t : Tree Leaf) : Means (.text t) (.expr (t.map Leaf.atom))
  | null : Means .null .none
  | list {l : List Yaml} {l' : List Val} : MeansAll l l' → Means (.list l) (.tuple l')

inductive MeansAll : List Yaml → List Val → Prop where
  | nil : MeansAll [] []
  | cons {y l v l'} : Means y v → MeansAll l l' → MeansAll (y :: l) (v :: l')
end

mutual
/-- Names in a value. -/
inductive Yaml.Has (s : String) : Yaml → Prop where
  | text {t : Tree Leaf} : t.Mem (.name s) → Yaml.Has s (.text t)
  | list {l : List Yaml} : HasAny s l → Yaml.Has s (.list l)

inductive HasAny (s : String) : List Yaml → Prop where
  | head {y l} : Yaml.Has s y → HasAny s (y :: l)
  | tail {y l} : HasAny s l → HasAny s (y :: l)
end

/-- A description. Mappings are lists of entries. -/
structure Desc where
  /-- index, start, stop and step -/
  loops : List (String × Yaml × Yaml × Yaml)
  /-- type and dimension -/
  arrays : List (String × List String × Yaml)
  sources : List (String × List Yaml)
  destinations : List (String × List Yaml)

/-- A name occurs somewhere. -/
def Desc.Has (d : Desc) (s : String) : Prop :=
  (∃ l ∈ d.loops, l.2.1.Has s ∨ l.2.2.1.Has s ∨ l.2.2.2.Has s) ∨ (∃ a ∈ d.arrays, a.2.2.Has s) ∨
    ∃ a, (a ∈ d.sources ∨ a ∈ d.destinations) ∧ ∃ y ∈ a.2, y.Has s

/-- A kernel: loops, variables with type and size, and accesses. -/
structure Kernel where
  loops : List (String × Val × Val × Val)
  datatype : Option (List String)
  vars : List (String × List String × Option (List Val))
  sources : List (String × List Val)
  destinations : List (String × List Val)

/-- The size of an array or a scalar. -/
def MeansSize (y : Yaml) : Option (List Val) → Prop
  | some l => Means y (.tuple l)
  | none => Means y .none

/-- The accesses are those described, each of them once. -/
def SameAccesses (described : String × List Yaml) (read : String × List Val) : Prop :=
  read.1 = described.1 ∧ read.2.Nodup ∧ (∀ y ∈ described.2, ∃ v ∈ read.2, Means y v) ∧ ∀ v ∈ read.2, ∃ y ∈ described.2, Means y v

/-- The kernel is the one described. -/
structure Describes (d : Desc) (k : Kernel) : Prop where
  loops : List.Forall₂ (fun x l => l.1 = x.1 ∧ Means x.2.1 l.2.1 ∧ Means x.2.2.1 l.2.2.1 ∧ Means x.2.2.2 l.2.2.2) d.loops k.loops
  vars : List.Forall₂ (fun x v => v.1 = x.1 ∧ v.2.1 = x.2.1 ∧ MeansSize x.2.2 v.2.2) d.arrays k.vars
  datatype : ∀ x ∈ d.arrays, k.datatype = some x.2.1
  sources : List.Forall₂ SameAccesses d.sources k.sources
  destinations : List.Forall₂ SameAccesses d.destinations k.destinations

/-- Names that sympy does not take for its own: single letters, which are excepted, and names that sympy does not have. -/
def Plain (inSympy : String → Prop) (s : String) : Prop := (s.toList.length = 1 ∧ s.toList.all Char.isAlpha) ∨ ¬ inSympy s

end Verif.Description
