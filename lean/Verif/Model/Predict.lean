import Verif.Model.LayerCond
import Verif.Model.Machine
import Verif.Model.Transfer

/-!
The way from the layer conditions to the predictions of the ECM model (`models/ecm.py:92-164`, `452-490`) and of the
Roofline model (`models/roofline.py:59-157`): the predictor evaluates its conditions for the caches of the machine
(`LayerCond`), the models read loads and stores per level, look up bandwidths (`Machine`) and combine the times
(`Transfer`, `Perf`). Which exception ends a run is not distinguished here (`none`); see the parts for it.
-/

namespace Verif.Predict

open Verif.LayerCond Verif.Perf

variable {K : Type} [LinearOrder K]

/-- What the layer conditions take from the kernel (`cacheprediction.py:401-415`): the finite distances, the number of
infinite ones, the number of written references and the size of all arrays. -/
structure Work (K : Type) where
  ds : List (Dist K)
  nInf : Nat
  nDest : Nat
  sumSizes : Int

/-- One cache as `cacheprediction.py:417-478` meets it: its size in bytes, which of its conditions are decided without
the constants, and the order in which the distinct distances are taken. -/
structure Cache (K : Type) where
  size : Int
  fullStatic : Bool
  isStatic : Dist K → Bool
  tails : List (Dist K)

/-- `cacheprediction.py:417-478`, `285-291`: the options of all caches, and the selected ones. -/
def traffic (w : Work K) (caches : List (Cache K)) : Option (List Opt) :=
  desymbolize (caches.map fun c =>
    buildOptions c.size w.sumSizes c.fullStatic c.isStatic w.ds w.nInf w.nDest c.tails)

/-- A `memory hierarchy` entry with the measurements for its level (one thread per core) and
`min(cores per group, cores per NUMA domain)`. -/
structure Level where
  base : Transfer.Level
  overlap : Bool
  maxCores : Nat
  meas : Option Machine.Meas

/-- The keys of the machine file that the predictions use. -/
structure Mach where
  clSize : Nat
  clock : ℚ
  levels : List Level
  kernels : List (String × Machine.Bench)

/-- `machine.get_bandwidth(cache_level, loads, stores, 1, cores)`; loads and stores are integers. -/
def bandwidth (m : Mach) (cores : Option Nat) (i : Nat) (loads stores : ℚ) : Except Transfer.Err ℚ :=
  match m.levels[i]? with
  | none => .error .index
  | some l =>
    match Machine.getBandwidth m.kernels l.meas i loads.num stores.num 1 cores l.maxCores with
    | .error _ => .error .value
    | .ok r => .ok r.1

/-- The entries of `get_loads`/`get_stores` as numbers. The first one is `nan` and never read. -/
def counts (l : List (Option Nat)) : List ℚ := l.map fun o => ((o.getD 0 : Nat) : ℚ)

/-- `ECMData.calculate_cycles` (`ecm.py:92-164`) and `ECM.analyze` (452-490): total cycles per cacheline of work, for
given in-core times. `none`: an exception. -/
def ecm (m : Mach) (elSize : Nat) (tComp tRegL1 : ℚ) (w : Work K) (caches : List (Cache K)) : Option ℚ :=
  match traffic w caches, m.levels with
  | some cache, l0 :: ls =>
    match Transfer.calculateCycles m.clSize elSize m.clock (bandwidth m none) (counts (getLoads cache))
        (counts (getStores cache)) (m.levels.map (·.base)) with
    | .error _ => none
    | .ok (cycles, penalty) =>
      match compose tComp tRegL1 l0.overlap ((ls.map (·.overlap)).zip (cycles.map (·.2))) penalty with
      | .error _ => none
      | .ok (ol, nol) => some (total ol nol)
  | _, _ => none

/-- `roofline.py:119-137` for the level with index `i`: loads, stores and bandwidth. `none`: an exception. -/
def roofLevel (m : Mach) (cores : Nat) (loads stores : List ℚ) (i : Nat) : Option (ℚ × ℚ × ℚ) :=
  match loads[i]?, stores[i]? with
  | some ld, some st =>
    match bandwidth m (some cores) i ld st with
    | .ok b => some (ld, st, b)
    | .error _ => none
  | _, _ => none

/-- `Roofline.calculate_cache_access` (`roofline.py:59-157`): the performance of the bottleneck in iterations per
second, for given numbers of distinct elements read and written in a cacheline of iterations. `none`: an exception. -/
def roofline (m : Mach) (elSize cores reads writes : Nat) (w : Work K) (caches : List (Cache K)) :
    Option (WithTop ℚ) :=
  match traffic w caches with
  | none => none
  | some cache =>
    match bandwidth m (some cores) 0 ((reads + writes : Nat) : ℚ) 0,
        ((List.range (m.levels.length - 1)).mapM fun i =>
          roofLevel m cores (counts (getLoads cache)) (counts (getStores cache)) (i + 1)) with
    | .ok b, some levels =>
      match Transfer.cacheAccess m.clSize elSize reads writes b levels with
      | .ok r => some r.2.2
      | .error _ => none
    | _, _ => none

end Verif.Predict
