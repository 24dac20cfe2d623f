import Verif.Model.Transfer

/-!
The verdict of the Roofline reports (`models/roofline.py:208-228`, `371-388`), from the results of the analysis. Tables and verbose output are not
modelled; numbers are not rounded (see `UnitText` for how they are printed).
-/

namespace Verif.RoofReport

open Verif.Perf Verif.Transfer

/-- The choices of `--unit`. -/
inductive PerfUnit where
  | itS
  | cyCl
  | cyIt
  | flopS
deriving DecidableEq, Repr

/-- `performance[self._args.unit]` -/
def get (c : Conv) : PerfUnit → Val
  | .itS => c.itS
  | .cyCl => .fin c.cyCl
  | .cyIt => .fin c.cyIt
  | .flopS => c.flopS

/-- An argument of `format`: a quantity or a dictionary with all units. -/
inductive Shown where
  | value (v : Val)
  | dict (c : Conv)
deriving DecidableEq, Repr

/-- The verdict printed. -/
inductive Verdict where
  | cpu (perf : Shown)
  | mem (perf : Shown) (level kernel : String) (intensity : Val)
deriving DecidableEq, Repr

/-- A level: its name, the loads, stores and bandwidth, and the kernel that the bandwidth was measured with. -/
structure Row where
  name : String
  kernel : String
  loads : ℚ
  stores : ℚ
  bw : ℚ

/-- An entry of `mem bottlenecks` (112-118, 148-154), as far as it is printed. -/
structure Bottleneck where
  perf : Conv
  level : String
  kernel : String
  intensity : Val
deriving DecidableEq, Repr

/-- Line 109 -/
def l1Intensity (el elSize reads writes : Nat) : Val := .fin (1 / (((reads + writes) * elSize : Nat) / el))

/-- Lines 139-146 -/
def levelIntensity (clSize el : Nat) (r : Row) : Val :=
  let bytes := r.loads * clSize + r.stores * clSize
  if bytes = 0 then .inf else .fin (1 / (bytes / el))

/-- What the kernel, the machine and the measurements supply. -/
structure Input where
  clock : ℚ
  cores : Nat
  clSize : Nat
  elSize : Nat
  flops : Nat
  reads : Nat
  writes : Nat
  l1 : Row
  rows : List Row

def Input.triples (x : Input) : List (ℚ × ℚ × ℚ) := x.rows.map fun r => (r.loads, r.stores, r.bw)

/-- `self.conv_perf`; an infinite or finite performance. -/
def Input.conv (x : Input) (p : WithTop ℚ) : Except Err Conv :=
  match convPerf x.clock x.clSize x.elSize x.flops p with
  | none => .error .zeroDivision
  | some c => .ok c

/-- Lines 112-118 and 148-154: all entries, from the performance of the levels. -/
def Input.bottlenecks (x : Input) (ps : List (WithTop ℚ)) : Except Err (List Bottleneck) :=
  let el := x.clSize / x.elSize
  (ps.zip ((x.l1, l1Intensity el x.elSize x.reads x.writes) :: x.rows.map fun r => (r, levelIntensity x.clSize el r))).mapM fun e =>
    match x.conv e.1 with
    | .error err => .error err
    | .ok c => .ok ⟨c, e.2.1.name, e.2.1.kernel, e.2.2⟩

/-- Lines 216-225, 380-388: the second verdict; `mem bottlenecks[None]` is a TypeError. -/
def memVerdict (bs : List Bottleneck) (unit : PerfUnit) (i : Option Nat) : Except Err Verdict :=
  match i with
  | none => .error .type
  | some i => match bs[i]? with
    | none => .error .index
    | some b => .ok (.mem (.value (get b.perf unit)) b.level b.kernel b.intensity)

/-- `RooflineFLOP.analyze` and `report`, for the flops per cycle of the precision. -/
def flopReport (x : Input) (flopsPerCycle : ℚ) (unit : PerfUnit) : Except Err Verdict := do
  let (ps, i, p) ← cacheAccess x.clSize x.elSize x.reads x.writes x.l1.bw x.triples
  let bs ← x.bottlenecks ps
  let min ← x.conv p
  match maxPerf x.clock x.clSize x.elSize x.flops x.cores flopsPerCycle with
  | none => .error .zeroDivision
  | some max => if cpuBound min max then .ok (.cpu (.dict max)) else memVerdict bs unit (some i)

/-- `RooflineASM.analyze` and `report`, for the throughput (cycles per block) and the pointer increment of the in-core model. The entry of CPU-L1 is replaced
by `None` (316), which is never chosen (`rooflineAsm` skips it). -/
def asmReport (x : Input) (throughput : ℚ) (pointerIncrement : Int) (unit : PerfUnit) : Except Err Verdict := do
  let (ps, _, _) ← cacheAccess x.clSize x.elSize x.reads x.writes x.l1.bw x.triples
  let bs ← x.bottlenecks ps
  let (i, p) := rooflineAsm ps
  let min ← x.conv p
  match asmPerf x.clock throughput pointerIncrement x.elSize x.cores with
  | none => .error .zeroDivision
  | some q =>
    let cpu ← x.conv (q : WithTop ℚ)
    if valGt min.itS cpu.itS then .ok (.cpu (.value (get cpu unit))) else memVerdict bs unit i

end Verif.RoofReport
