import Verif.Model.Names
import Verif.Spec.Lru

/-! Renaming of arrays, and what caches see of the addresses of a kernel. -/

namespace Verif.Names

open Verif.Layout Verif.Spec Verif.Predict Verif.LayerCond

variable {K : Type} [LinearOrder K]

/-- The array under another name. -/
def renameArr (ρ : String → String) (a : Arr) : Arr := { a with name := ρ a.name }

/-- The access to an array under another name. -/
def renameAccess (ρ : String → String) (a : Access) : Access := { a with arr := ρ a.arr }

/-- The same array under another name, its references in any order. -/
structure Renamed (ρ : String → String) (a a' : ArrRefs) : Prop where
  name : a'.name = ρ a.name
  dims : a'.dims = a.dims
  accs : a.accs.Perm a'.accs
  dests : a.dests.Perm a'.dests

/-- The same arrays under other names, declared in any order. -/
def SameKernel (ρ : String → String) (arrays arrays' : List ArrRefs) : Prop :=
  ∃ l, List.Forall₂ (Renamed ρ) arrays l ∧ l.Perm arrays'

/-- Caches of the same sizes. The order in which equal distances are taken and which conditions are decided without the
constants may differ. -/
def SameCaches (w : Work K) : List (Cache K) → List (Cache K) → Prop :=
  List.Forall₂ fun c c' => IsTails w.ds c.tails ∧ IsTails w.ds c'.tails ∧ c.size = c'.size

/-- The cachelines that are accessed in the given iterations: loads, then stores of each iteration. -/
def lines (cl : Int) (offsets : List (List Int × List Int)) : List Int :=
  (offsets.flatMap fun r => r.1 ++ r.2).map (· / cl)

/-- Misses of a cache with `sets` sets of `ways` lines, each with LRU replacement, that starts empty. -/
def setMisses (sets ways : Nat) (trace : List Int) : Nat :=
  ((List.range sets).map fun s => misses ways [] (trace.filter fun l => l % (sets : Int) = (s : Int))).sum

end Verif.Names
