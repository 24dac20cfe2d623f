import Verif.Model.Layout
import Mathlib.Algebra.BigOperators.Group.List.Basic

/-!
References of a kernel: which of them move with the loops, and the addresses they denote.
-/

namespace Verif.Refs

open Verif.Layout

/-- A subscript depends on a loop counter. -/
def Varies (counters : List String) (a : Access) : Prop := ∃ c ∈ counters, ∃ s ∈ a.subs, c ∈ s.free

/-- Number of the element with the given subscripts, in the order of C: the last subscript runs fastest. -/
def rowMajor : List Int → List Int → Int
  | _ :: ds, x :: xs => x * ds.prod + rowMajor ds xs
  | _, _ => 0

/-- Byte address of a reference, with the given start of each array: the element with the values of its subscripts, one for each dimension. -/
def Address (vars : List Arr) (bases : List (String × Int)) (env : String → Option Int) (a : Access) (o : Int) : Prop :=
  ∃ v ∈ vars, a.arr = v.name ∧ ∃ b, bases.lookup v.name = some b ∧
    ∃ vals, List.Forall₂ (fun s x => s.eval env = some x) a.subs vals ∧ vals.length = v.dims.length ∧
      o = b + v.elem * rowMajor v.dims vals

/-- All references of a variable with subscripts; `none` is an access to a scalar. -/
def refs (sources destinations : List (String × List (Option (List Sym)))) (name : String) : List (List Sym) :=
  ((sources.lookup name).getD [] ++ (destinations.lookup name).getD []).filterMap id

end Verif.Refs
