import Verif.Model.Layout
import Mathlib.Order.Defs.LinearOrder
import Mathlib.Data.List.Dedup

/-!
Model of `LayerConditionPredictor` (`kerncraft/cacheprediction.py:259-507`), with all constants
substituted. Sympy distances are represented by an identity (`expr`), the sort key
`sympy_expr_abs_distance_key` in an arbitrary linear order `K`, and their value in bytes; `oo` (one per
array) is counted separately. Conditions are evaluated exactly (for
`canonical_relational` see `Relational` and C91). For the applicability checks see `Applicable`.
-/

namespace Verif.LayerCond
open Verif.Layout

/-! ### Distances (`cacheprediction.py:355-399`) -/

/-- Pairwise differences of neighbours: `[acs[i-1]-acs[i] for i in range(1, len(acs))]` (line 394);
also `kernel.py:464-468` (`compile_relative_distances`). -/
def gaps : List Int → List Int
  | a :: b :: l => (a - b) :: gaps (b :: l)
  | _ => []

/-- Python tuple comparison `a >= b` (tuples of equal length after padding, lines 384-388). -/
def tupleGe : List Int → List Int → Bool
  | [], [] => true
  | _ :: _, [] => true
  | [], _ :: _ => false
  | a :: as, b :: bs => if b < a then true else if a < b then false else tupleGe as bs

/-- Lines 390-394: sort offset tuples in decreasing order and flatten them again. -/
def sortedPositions (dims : List Int) (accs : List (List Int)) : List Int :=
  (accs.insertionSort (fun a b => tupleGe a b)).map (flatten dims)

/-- Lines 394-396: distances of one array in elements, `none` for `oo`. -/
def arrayDistances (dims : List Int) (accs : List (List Int)) : List (Option Int) :=
  (gaps (sortedPositions dims accs)).map some ++ [none]

/-! ### Options (`cacheprediction.py:413-478`) -/

/-- A finite distance in bytes. -/
structure Dist (K : Type) where
  expr : Nat
  key : K
  val : Int
deriving DecidableEq, Repr

/-- One entry of `results['cache'][level]`. `static`: the condition contains no symbols, i.e. it is a
`BooleanTrue`/`BooleanFalse` already when the options are built. -/
structure Opt where
  cond : Bool
  static : Bool
  hits : Nat
  misses : Nat
  evicts : Nat
deriving DecidableEq, Repr

variable {K : Type} [LinearOrder K]

/-- Number of distances (including `nInf` infinities) whose key exceeds that of the tail. -/
def above (ds : List (Dist K)) (nInf : Nat) (tail : Dist K) : Nat :=
  (ds.filter (fun d => tail.key < d.key)).length + nInf

/-- Number of distances whose key does not exceed that of the tail. -/
def below (ds : List (Dist K)) (tail : Dist K) : Nat :=
  (ds.filter (fun d => d.key ≤ tail.key)).length

/-- Lines 434-443: `cache_requirement`. -/
def requirement (ds : List (Dist K)) (nInf : Nat) (tail : Dist K) : Int :=
  ((ds.filter (fun d => d.key ≤ tail.key)).map (·.val)).sum + tail.val * above ds nInf tail

/-- Lines 428-466: options of the tails in the given order, stopping after a statically true one. -/
def tailOptions (size : Int) (isStatic : Dist K → Bool) (ds : List (Dist K)) (nInf nDest : Nat) :
    List (Dist K) → List Opt
  | [] => []
  | t :: ts =>
    let o : Opt := ⟨decide (requirement ds nInf t ≤ size), isStatic t, below ds t, above ds nInf t, nDest⟩
    if o.cond && o.static then [o] else o :: tailOptions size isStatic ds nInf nDest ts

/-- Lines 417-478: all options of one cache level. `tails` is the sorted list of distinct distances. -/
def buildOptions (size sumSizes : Int) (fullStatic : Bool) (isStatic : Dist K → Bool)
    (ds : List (Dist K)) (nInf nDest : Nat) (tails : List (Dist K)) : List Opt :=
  let full : Opt := ⟨decide (size > sumSizes), fullStatic, ds.length + nInf, 0, 0⟩
  let opts := full :: tailOptions size isStatic ds nInf nDest tails
  match opts.getLast? with
  | some o => if o.cond && o.static then opts else opts ++ [⟨true, true, 0, ds.length + nInf, nDest⟩]
  | none => opts

/-- `sorted(set(distances_bytes), reverse=True, key=...)` without `oo`: the distinct finite distances in
decreasing key order; the order of different distances with equal keys is unspecified. -/
def IsTails (ds tails : List (Dist K)) : Prop :=
  tails.Nodup ∧ (∀ d, d ∈ tails ↔ d ∈ ds) ∧ tails.Pairwise (fun a b => b.key ≤ a.key)

/-- Lines 285-291 `desymbolize` for one level: the first option whose condition holds. -/
def select (opts : List Opt) : Option Opt := opts.find? (·.cond)

/-- Lines 285-291 for all levels; `none` if some level keeps its list of options. -/
def desymbolize (levels : List (List Opt)) : Option (List Opt) := levels.mapM select

/-! ### Statistics (`cacheprediction.py:480-507`), `none` is `nan` -/

/-- `get_loads` -/
def getLoads (cache : List Opt) : List (Option Nat) := none :: cache.map (fun c => some c.misses)

/-- `get_hits`; `none` is the IndexError on an empty hierarchy. -/
def getHits (cache : List Opt) : Option (List Nat) :=
  cache.getLast?.map (fun l => cache.map (·.hits) ++ [l.misses])

/-- `get_misses` -/
def getMisses (cache : List Opt) : List Nat := cache.map (·.misses) ++ [0]

/-- `get_stores` -/
def getStores (cache : List Opt) : List (Option Nat) := none :: cache.map (fun c => some c.evicts)

/-- `get_evicts` -/
def getEvicts (cache : List Opt) : List Nat := cache.map (·.evicts) ++ [0]

end Verif.LayerCond
