import Verif.Model.Transfer

/-!
Model of the results of the benchmark model (`kerncraft/models/benchmark.py:393-402`, `450-525`) and of `Kernel.bytes_per_iteration`
(`kerncraft/kernel.py:653-664`). Floats are rationals, quantities with units are their numbers.
-/

namespace Verif.PhenoEcm

open Verif.Transfer

/-- `bytes_per_iteration` (`kernel.py:660-664`): `sizes` are the sizes of the types of the written variables in their order, `steps` the
steps of the loops from outside to inside; `none` is an IndexError. -/
def bytesPerIteration (sizes : List Nat) (steps : List Int) : Option Int :=
  match sizes.head?, steps.getLast? with
  | some size, some step => some (size * step)
  | _, _ => none

/-- The entries of `self.results` that are calculated from the runtime (lines 506-525). -/
structure Numbers where
  runtime : ℚ
  cyCl : ℚ
  mflops : ℚ
  mlups : ℚ
  mits : ℚ
  volume : Option ℚ

/-- Lines 393-402 and 504-525: `iterations` per repetition, `timePer` repetition, `gbytes` the reported memory volume (`none`: nan).
`none` is a ZeroDivisionError (or an infinite value of sympy). -/
def numbers (clSize bytesPerIt iterations timePer clock repetitions : ℚ) (flops : Nat) (gbytes : Option ℚ) : Option Numbers :=
  if bytesPerIt = 0 ∨ iterations = 0 ∨ timePer = 0 ∨ repetitions = 0 then none
  else
    let perCl := clSize / bytesPerIt
    let cys := timePer * clock
    some ⟨timePer, cys / iterations * perCl, flops / (timePer / iterations) / 1000000, iterations / timePer / 1000000,
      iterations / timePer / 1000000, gbytes.map (· * 1000000000 / repetitions)⟩

/-- `ecm_model` (line 496). -/
structure Ecm where
  tOL : ℚ
  tnOL : ℚ
  tL1L2 : ℚ
  tL2L3 : ℚ
  tMEM : ℚ

/-- `upstream throughput` of a level as a divisor. -/
def rateOf (hierarchy : List Level) (i : Nat) : Except String ℚ :=
  match hierarchy[i]? with
  | none => .error "IndexError"
  | some l =>
    match l.rate with
    | .perCycle r => if r = 0 then .error "ZeroDivisionError" else .ok r
    | _ => .error "TypeError"

/-- Value of a metric, or a KeyError. -/
def value (m : String → String → Option ℚ) (level metric : String) : Except String ℚ :=
  match m level metric with
  | some x => .ok x
  | none => .error "KeyError"

/-- Lines 450-497: `m` has the measured metrics of the levels, `tOL` and `tData` the metrics of the overlapping and non-overlapping models,
`total` is the number of cachelines of work, `bw` the bandwidth for load and store streams. The metric `tData` is not used. -/
def ecm (clSize clock total tOL _tData : ℚ) (hierarchy : List Level) (bw : ℚ → ℚ → Except String ℚ) (m : String → String → Option ℚ) :
    Except String Ecm := do
  if total = 0 then throw "ZeroDivisionError"
  let l1 ← value m "L1" "loads"
  let _ ← value m "L1" "stores"
  let misses ← value m "L3" "misses"
  let evicts ← value m "L3" "evicts"
  let b ← bw misses evicts
  let l2l ← value m "L2" "loads"
  let l2s ← value m "L2" "stores"
  let r1 ← rateOf hierarchy 1
  let l3l ← value m "L3" "loads"
  let l3s ← value m "L3" "stores"
  let r2 ← rateOf hierarchy 2
  let ml ← value m "MEM" "loads"
  let ms ← value m "MEM" "stores"
  if b = 0 then throw "ZeroDivisionError"
  return ⟨tOL / total, l1 / total * (1 / 2), (l2l + l2s) / total * clSize / r1, (l3l + l3s) / total * clSize / r2,
    (ml + ms) * clSize / total / b * clock⟩

/-- Lines 453-454: cachelines of work of a measurement. -/
def totalCachelines (clSize bytesPerIt iterations repetitions : ℚ) : ℚ := iterations * repetitions / (clSize / bytesPerIt)

end Verif.PhenoEcm
