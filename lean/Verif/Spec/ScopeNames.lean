import Verif.Model.Scopes

/-!
Specification for C150: kernels that are sensible C themselves.
-/

namespace Verif.Scopes

open Verif.CodeGen Verif.Spec

/-- Variables of the kernel with their type. -/
def Kernel.Var (k : Kernel) (n : String) (t : Layout.CType) : Prop := .decl n t ∈ k.items

/-- Names of variables in the order of their declarations. -/
def varNames : List Item → List String
  | [] => []
  | .decl n _ :: l => n :: varNames l
  | .other :: l => varNames l

/-- Names of variables and constants. -/
def Kernel.names (k : Kernel) : List String := varNames k.items ++ k.consts

/-- Every name in the nest is a variable, a constant or a counter of a loop around it. -/
def Known (known : List String) (body : List String) : List (String × List String) → Prop
  | [] => ∀ n ∈ body, n ∈ known
  | (c, ns) :: ls => (∀ n ∈ ns, n ∈ c :: known) ∧ Known (c :: known) body ls

/-- Different things have different names, extents of arrays are given by constants, and all names are known. -/
structure Sensible (k : Kernel) : Prop where
  distinct : k.names.Nodup
  extents : ∀ n t, k.Var n t → ∀ d ∈ t.dims, ∀ x ∈ d.free, x ∈ k.consts
  body : Known k.names k.body k.loops
  refs : Known k.names k.refs k.loops
  swaps : ∀ p ∈ k.swaps, p.1 ∈ k.names ∧ p.2 ∈ k.names

end Verif.Scopes
