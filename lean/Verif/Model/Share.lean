import Verif.Model.Predict

/-!
The sizes of the caches that a core is given (`machinemodel.py:419-442`) and the predictions made with them
(`cacheprediction.py:417-478`, `models/ecm.py:92-164`). `MachineModel.get_cachesim` divides the sets of shared caches,
`cachesim` multiplies sets, ways and length of a cacheline to the size of a cache. The simulator is taken as just built
(see C23 for the memoised one), and its levels as in the order of the machine file.
-/

namespace Verif.Share

open Verif.LayerCond Verif.Predict

variable {K : Type} [LinearOrder K]

/-- A `memory hierarchy` entry with a cache: `cache per group` and `cores per group`. -/
structure Entry where
  sets : Nat
  ways : Nat
  clSize : Nat
  coresPerGroup : Nat
deriving DecidableEq, Repr

/-- `machinemodel.py:429-440`: the sizes in bytes of the caches of a core, if `cores` cores are used. `none` is the
ZeroDivisionError. -/
def sizes (entries : List Entry) (numaCores cores : Nat) : Option (List Nat) :=
  (Machine.buildSim (entries.map fun e => ⟨e.sets, e.coresPerGroup⟩) numaCores cores).map
    (List.zipWith (fun e s => s * e.ways * e.clSize) entries)

/-- How one run meets the layer conditions of a cache (see `Predict.Cache`). -/
structure Order (K : Type) where
  fullStatic : Bool
  isStatic : Dist K → Bool
  tails : List (Dist K)

/-- The caches as the layer conditions meet them (`cacheprediction.py:417-419`). -/
def caches (orders : List (Order K)) (sizes : List Nat) : List (Cache K) :=
  List.zipWith (fun (o : Order K) (s : Nat) => ⟨(s : Int), o.fullStatic, o.isStatic, o.tails⟩) orders sizes

/-- The selected layer conditions with `cores` cores (`cacheprediction.py:401-478`). -/
def traffic (w : Work K) (entries : List Entry) (numaCores cores : Nat) (orders : List (Order K)) : Option (List Opt) :=
  (sizes entries numaCores cores).bind fun s => Predict.traffic w (caches orders s)

/-- The cycles of one core if `cores` cores are used (`ecm.py:92-164`, `452-490`). -/
def ecm (m : Mach) (elSize : Nat) (tComp tReg : ℚ) (w : Work K) (entries : List Entry) (numaCores cores : Nat)
    (orders : List (Order K)) : Option ℚ :=
  (sizes entries numaCores cores).bind fun s => Predict.ecm m elSize tComp tReg w (caches orders s)

end Verif.Share
