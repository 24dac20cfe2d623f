import Mathlib.Data.List.Basic

/-!
Specification: a fully associative LRU cache, the access trace of a unit-stride sweep, and cachelines of one or more
elements.
-/

namespace Verif.Spec

/-- Cache content, most recently used first. An access moves the element to the front and evicts the
least recently used element beyond the capacity. -/
def lruAccess {α : Type} [DecidableEq α] (cap : Nat) (c : List α) (x : α) : List α :=
  (x :: c.erase x).take cap

/-- Cache content after a trace, starting empty. -/
def lruRun {α : Type} [DecidableEq α] (cap : Nat) (trace : List α) : List α :=
  trace.foldl (lruAccess cap) []

/-- Number of misses in the second trace, which follows the first one. -/
def misses {α : Type} [DecidableEq α] (cap : Nat) (pre : List α) : List α → Nat
  | [] => 0
  | x :: xs => (if x ∈ lruRun cap pre then 0 else 1) + misses cap (pre ++ [x]) xs

/-- Accesses of a sweep: array number and offset. -/
structure StencilAccess where
  arr : Nat
  off : Int
deriving DecidableEq, Repr

/-- Element touched by access `a` in iteration `n`. -/
def elemAt (n : Nat) (a : StencilAccess) : Nat × Int := (a.arr, (n : Int) + a.off)

/-- Trace of iterations `0 .. n-1`, where `ord m` is the order of the accesses in iteration `m`. -/
def sweep (ord : Nat → List StencilAccess) (n : Nat) : List (Nat × Int) :=
  (List.range n).flatMap (fun m => (ord m).map (elemAt m))

/-- The cacheline of an element, with `L` elements in a line, if array `k` begins at element `base k` of the memory. -/
def lineOf (base : Nat → Int) (L : Nat) (e : Nat × Int) : Int := (base e.1 + e.2) / (L : Int)

end Verif.Spec
