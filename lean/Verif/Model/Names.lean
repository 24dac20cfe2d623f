import Verif.Model.Predict

/-!
The input of the layer conditions as it is collected from all arrays (`cacheprediction.py:353-415`): arrays are visited in
the order of their names. All constants are substituted and subscripts are offsets to the loop counters, as in
`LayerCond`; arrays without references are skipped; arrays whose subscripts do not contain the counter of the inner loop
are not listed.
-/

namespace Verif.Names

open Verif.Layout Verif.LayerCond

variable {K : Type} [LinearOrder K]

/-- An array with all references to it and those that are written, as offsets per dimension. -/
structure ArrRefs where
  name : String
  dims : List Int
  accs : List (List Int)
  dests : List (List Int)
deriving DecidableEq, Repr

/-- Lines 356-396: distances in elements of all arrays, `none` for `oo`. -/
def allDistances (arrays : List ArrRefs) : List (Option Int) :=
  (arrays.insertionSort (fun a b => a.name ≤ b.name)).flatMap fun a =>
    if a.accs = [] then [] else arrayDistances a.dims a.accs

/-- Lines 380-381: the set `destinations`. -/
def destinations (arrays : List ArrRefs) : List (String × List Int) :=
  ((arrays.insertionSort (fun a b => a.name ≤ b.name)).flatMap fun a => a.dests.map fun d => (a.name, d)).dedup

/-- Lines 398-415 with `elSize` bytes per element; `mk` attaches sort keys to distances in bytes. -/
def work (mk : Int → Dist K) (elSize : Int) (arrays : List ArrRefs) : Predict.Work K where
  ds := (allDistances arrays).filterMap (Option.map fun d => mk (d * elSize))
  nInf := (allDistances arrays).countP Option.isNone
  nDest := (destinations arrays).length
  sumSizes := (arrays.map fun a => arraySize a.dims * elSize).sum

end Verif.Names
