import Verif.Model.Predict

/-!
The prediction of the ECM model for a number of cores (`models/ecm.py:291-371`, `442-558`) and two of the limits of the
Roofline model for the same number (`models/roofline.py:115-146`, `282-337`): that of the core and that of the memory. Loads
and stores per level are natural numbers, as those of the layer conditions.
-/

namespace Verif.Limits

open Verif.Perf Verif.Predict

/-- What the in-core analysis returns: throughput and port cycles of the block, and its pointer increment. The lists of
ports are those of the machine file. -/
structure Block where
  throughput : ℚ
  cycles : List (String × ℚ)
  olPorts : List String
  nolPorts : List String
  increment : Int

/-- Counts as numbers. -/
def nums (l : List Nat) : List ℚ := l.map Nat.cast

/-- `ecm.py:442-493`: `T_ECM` and `T_MEM`. `none`: an exception. -/
def times (m : Mach) (elSize : Nat) (tComp tReg : ℚ) (loads stores : List Nat) : Option (ℚ × ℚ) :=
  match m.levels with
  | [] => none
  | l0 :: ls =>
    match Transfer.calculateCycles m.clSize elSize m.clock (bandwidth m none) (nums loads)
        (nums stores) ((l0 :: ls).map (·.base)) with
    | .error _ => none
    | .ok (cycles, penalty) =>
      match compose tComp tReg l0.overlap ((ls.map (·.overlap)).zip (cycles.map (·.2))) penalty with
      | .error _ => none
      | .ok (ol, nol) => cycles.getLast?.map fun c => (total ol nol, c.2)

/-- `ecm.py:291-371`, `442-558`: iterations per second that the ECM model predicts for the given number of cores. -/
def ecmPerf (m : Mach) (elSize flops numa perSocket sockets : Nat) (b : Block) (loads stores : List Nat) (cores : Nat) :
    Option Val :=
  match analyzeCPU b.throughput b.cycles b.olPorts b.nolPorts b.increment elSize m.clSize with
  | none => none
  | some r =>
    match times m elSize r.tComp r.tRegL1 loads stores with
    | none => none
    | some (t, tm) =>
      match scaling tm t numa perSocket sockets cores with
      | .error _ => none
      | .ok x => (convCPU m.clock x m.clSize elSize flops).map (·.itS)

/-- `roofline.py:303-304`, `333-337`: iterations per second of the in-core model. -/
def cpuLimit (m : Mach) (elSize : Nat) (b : Block) (cores : Nat) : Option ℚ :=
  Transfer.asmPerf m.clock b.throughput b.increment elSize cores

/-- `roofline.py:115-146` for the last level: iterations per second of the memory. -/
def memLimit (m : Mach) (elSize : Nat) (loads stores : List Nat) (cores : Nat) : Option (WithTop ℚ) :=
  (roofLevel m cores (nums loads) (nums stores) (m.levels.length - 1)).map fun r =>
    Transfer.levelPerf m.clSize (m.clSize / elSize) r.1 r.2.1 r.2.2

end Verif.Limits
