import Verif.Model.Perf

/-!
Model of the transfer times of the ECM model (`models/ecm.py:92-164`) and of the performance limits of the Roofline
model (`models/roofline.py:59-187`, `301-340`). Floats are rationals, `⊤` is `inf`. The numbers of loads and stores per
level and the bandwidth found for them are inputs (see `LayerCond`, `Sim` and `Machine`).
-/

namespace Verif.Transfer

open Verif.Perf

/-- Exceptions. -/
inductive Err
  | zeroDivision
  | value
  | index
  | type
deriving DecidableEq, Repr

/-- First entry of `upstream throughput`. -/
inductive Rate
  | memory
  | perCycle (bytes : ℚ)
  | text
deriving DecidableEq, Repr

/-- The keys of a `memory hierarchy` entry that the models use. -/
structure Level where
  name : String
  rate : Rate
  duplex : String
  loadPenalty : Option ℚ
  storePenalty : Option ℚ
deriving DecidableEq, Repr

/-- `ecm.py:143-155`: cycles of a cache level. -/
def cacheTime (clSize rate loads stores : ℚ) (duplex : String) : Except Err ℚ :=
  if clSize = 0 then .error .zeroDivision
  else
    let t := rate / clSize
    if duplex = "half-duplex" then
      if t = 0 then .error .zeroDivision else .ok ((loads + stores) / t)
    else if duplex = "full-duplex" then
      if t = 0 then .error .zeroDivision else .ok (max (loads / t) (stores / t))
    else .error .value

/-- `ecm.py:99`, `123-130`: cycles of a memory level. `float(cacheline size) // element_size` is a floor. -/
def memTime (clSize elSize : Nat) (clock bw loads stores : ℚ) (duplex : String) : Except Err ℚ :=
  if bw = 0 then .error .zeroDivision
  else if duplex = "half-duplex" then .ok ((loads + stores) * (clSize / elSize : Nat) * elSize * clock / bw)
  else .ok (max loads stores * (clSize / elSize : Nat) * elSize * clock / bw)

/-- Lines 133-138: penalty of one memory level. -/
def levelPenalty (l : Level) (loads stores : ℚ) : ℚ :=
  (match l.loadPenalty with | some p => loads * p | none => 0) +
  (match l.storePenalty with | some p => stores * p | none => 0)

/-- Lines 108-160 for one level: its cycles and what is added to the penalty. `bw` stands for `get_bandwidth`. -/
def levelTime (clSize elSize : Nat) (clock : ℚ) (bw : Nat → ℚ → ℚ → Except Err ℚ) (loads stores : List ℚ)
    (i : Nat) (l : Level) : Except Err (ℚ × ℚ) :=
  match loads[i]?, stores[i]? with
  | some ld, some st =>
    match l.rate with
    | .memory => do
      let b ← bw i ld st
      let c ← memTime clSize elSize clock b ld st l.duplex
      .ok (c, levelPenalty l ld st)
    | .perCycle r => do
      let c ← cacheTime clSize r ld st l.duplex
      .ok (c, 0)
    | .text => .error .value
  | _, _ => .error .index

/-- Lines 107-162: the loop over the levels from index `i` on, with the list of cycles and the penalty so far. -/
def timesFrom (clSize elSize : Nat) (clock : ℚ) (bw : Nat → ℚ → ℚ → Except Err ℚ) (loads stores : List ℚ) :
    Nat → List Level → List (String × ℚ) → ℚ → Except Err (List (String × ℚ) × ℚ)
  | _, [], cycles, penalty => .ok (cycles, penalty)
  | i, l :: ls, cycles, penalty => do
    let r ← levelTime clSize elSize clock bw loads stores i l
    timesFrom clSize elSize clock bw loads stores (i + 1) ls (cycles ++ [(l.name, r.1)]) (penalty + r.2)

/-- `calculate_cycles` (92-164): cycles per level after the first, and penalty. A hierarchy of one level has no entry
`penalty`, here 0. -/
def calculateCycles (clSize elSize : Nat) (clock : ℚ) (bw : Nat → ℚ → ℚ → Except Err ℚ) (loads stores : List ℚ)
    (hierarchy : List Level) : Except Err (List (String × ℚ) × ℚ) :=
  if elSize = 0 then .error .zeroDivision
  else timesFrom clSize elSize clock bw loads stores 1 hierarchy.tail [] 0

/-! ### Roofline -/

/-- `roofline.py:104-110`: iterations per second of CPU-L1 for the given numbers of distinct elements read and written in
`el` iterations; `none`: nothing is moved. -/
def l1Perf (el elSize reads writes : Nat) (bw : ℚ) : Option ℚ :=
  let total : ℚ := (reads + writes) * elSize
  if total = 0 then none else some (bw * (1 / (total / el)))

/-- Lines 123-146: iterations per second of a further level. -/
def levelPerf (clSize el : Nat) (loads stores bw : ℚ) : WithTop ℚ :=
  let bytes := loads * clSize + stores * clSize
  if bytes = 0 then ⊤ else ((bw * (1 / (bytes / el)) : ℚ) : WithTop ℚ)

/-- `calculate_cache_access` (59-160): performance of all levels, the index of the bottleneck and its performance. The
entries of `levels` are loads, stores and bandwidth of the levels after CPU-L1. -/
def cacheAccess (clSize elSize reads writes : Nat) (bwL1 : ℚ) (levels : List (ℚ × ℚ × ℚ)) :
    Except Err (List (WithTop ℚ) × Nat × WithTop ℚ) :=
  if elSize = 0 then .error .zeroDivision
  else
    let el := clSize / elSize
    if el = 0 then .error .zeroDivision
    else match l1Perf el elSize reads writes bwL1 with
      | none => .error .type
      | some p =>
        let rest := levels.map fun l => levelPerf clSize el l.1 l.2.1 l.2.2
        .ok ((p : WithTop ℚ) :: rest, (rest.foldl roofStep (1, 0, (p : WithTop ℚ))).2)

/-- `conv_perf` (170-187); `elements_per_cacheline` is a true quotient, `clock / inf` is 0; `none`: ZeroDivisionError. -/
def convPerf (clock : ℚ) (clSize elSize flops : Nat) (itS : WithTop ℚ) : Option Conv :=
  if elSize = 0 then none
  else
    let el : ℚ := clSize / elSize
    match itS with
    | ⊤ => some ⟨.inf, 0 * el, 0, Val.inf.scale flops⟩
    | (q : ℚ) => if q = 0 then none else some ⟨.fin q, clock / q * el, clock / q, (Val.fin q).scale flops⟩

/-- `RooflineFLOP.analyze` (167-168): `conv_perf` of the peak performance in FLOP/s. -/
def maxPerf (clock : ℚ) (clSize elSize flops cores : Nat) (flopsPerCycle : ℚ) : Option Conv :=
  convPerf clock clSize elSize flops ((clock * cores * flopsPerCycle : ℚ) : WithTop ℚ)

/-- `a > b` on floats. -/
def valGt : Val → Val → Bool
  | .fin a, .fin b => decide (b < a)
  | .inf, .fin _ => true
  | _, _ => false

/-- `report` (209): is the kernel reported as CPU bound? -/
def cpuBound (minPerf peak : Conv) : Bool := valGt minPerf.flopS peak.flopS

/-- `RooflineASM.analyze` (303-304, 333-337): performance of the in-core model in iterations per second, for all cores. -/
def asmPerf (clock throughput : ℚ) (pointerIncrement : Int) (elSize cores : Nat) : Option ℚ :=
  if elSize = 0 then none
  else
    let elements : ℚ := |(pointerIncrement : ℚ) / elSize|
    if elements * elSize = 0 then none
    else if throughput = 0 then none
    else some (clock / throughput * elements * cores)

end Verif.Transfer
