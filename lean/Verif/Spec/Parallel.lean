import Mathlib.Data.List.Perm.Basic
import Mathlib.Logic.Relation

/-! What C151 says: execution of a loop nest one iteration after the other, and iterations that are independent. -/

namespace Verif.Parallel

/-- Things that statements of the loop nest refer to. -/
inductive Name where
  | scalar (s : String)
  | elem (array : String) (i : Int)
deriving DecidableEq, Repr

/-- An assignment: the places it reads, one by one, the place it writes, and the value from those read. -/
structure Assign (P V : Type) where
  reads : List P
  target : P
  value : List V → V

variable {P V : Type} [DecidableEq P]

/-- Writing a place. -/
def put (m : P → V) (p : P) (v : V) : P → V := fun q => if q = p then v else m q

/-- An assignment without interruption. -/
def exec (m : P → V) (a : Assign P V) : P → V := put m a.target (a.value (a.reads.map m))

/-- Assignments one after the other. -/
def execAll (m : P → V) (l : List (Assign P V)) : P → V := l.foldl exec m

/-- All places of an assignment. -/
def Assign.places (a : Assign P V) : List P := a.target :: a.reads

/-- No iteration accesses what another one writes. -/
def Independent (i j : List (Assign P V)) : Prop :=
  ∀ a ∈ i, ∀ b ∈ j, a.target ∉ b.places ∧ b.target ∉ a.places

/-- The loop nest as often as it is called, its iterations in their order. -/
def repeated (iters : List (List (Assign P V))) : Nat → (P → V) → (P → V)
  | 0, m => m
  | n + 1, m => repeated iters n (execAll m iters.flatten)

/-- Assignments that leave scalars as they are and read those in the list only. -/
def KeepsScalars (names : List String) (a : Assign Name V) : Prop :=
  (∃ x i, a.target = .elem x i) ∧ ∀ s, .scalar s ∈ a.reads → s ∈ names

/-- Assignments that refer to the scalars in the list only. -/
def Declared (names : List String) (a : Assign Name V) : Prop := ∀ s, .scalar s ∈ a.places → s ∈ names

/-- The iterations are distributed to threads, each one to one of them. -/
def Shares (iters : List (List (Assign Name V))) (parts : List (List (List (Assign Name V)))) : Prop := parts.flatten.Perm iters

end Verif.Parallel
