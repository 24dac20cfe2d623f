import Verif.Model.RegionOut
import Verif.Model.PerfMetric

/-!
Conditions under which benchmarks run (`models/benchmark.py:286-355`, `models/standalone_benchmark.py:41-79`, `166-177`). The output of `likwid-perfctr` is
read as in `PerfOut` and `RegionOut`; whether the current system fits the machine description (`current_system`) is in `Readout` and a parameter here.
-/

namespace Verif.Guard

open Verif.PerfOut

/-- The arguments of the command line that matter. -/
structure Args where
  cores : Int
  noPheno : Bool
  ignoreWarnings : Bool
deriving DecidableEq, Repr

/-- `models/benchmark.py:326-329`, `models/standalone_benchmark.py:75-79` -/
def system (fits ignoreWarnings : Bool) : Except String Unit := if !fits && !ignoreWarnings then .error "SystemExit" else .ok ()

/-- `models/benchmark.py:303-329`: the value of `self.no_phenoecm` afterwards. Line 311 reads an attribute of the arguments, which are `None` if not given;
`overlapping` and `nonOverlapping` are the performance counter metrics of the machine description. -/
def create (args : Option Args) (overlapping nonOverlapping : List Char) (fits : Bool) : Except String Bool :=
  match args with
  | none => .error "AttributeError"
  | some a =>
    let no :=
      if a.cores > 1 ∧ !a.noPheno then true
      else if "INFORAMTION_REQUIRED".toList <:+: overlapping ++ nonOverlapping then true
      else a.noPheno
    match system fits a.ignoreWarnings with
    | .error e => .error e
    | .ok () => .ok no

/-- `models/standalone_benchmark.py:59-79` -/
def createStandalone (args : Option Args) (fits : Bool) : Except String Bool :=
  match args with
  | none => .error "AttributeError"
  | some a =>
    match system fits a.ignoreWarnings with
    | .error e => .error e
    | .ok () => .ok (if a.cores > 1 ∧ !a.noPheno then true else a.noPheno)

/-- `abs(current_clock - expected_clock) > expected_clock * 0.01`; comparisons with nan are false. -/
def deviates (current : Num) (expected : ℚ) : Bool :=
  match current with
  | .fin x => decide (expected / 100 < |x * 1000000000 - expected|)
  | .inf _ => true
  | .nan => false

/-- `models/benchmark.py:346-352`, `models/standalone_benchmark.py:168-175`: the entry `CPU clock:` is compared. -/
def checkClock (e : Entry) (expected : ℚ) (ignoreWarnings : Bool) : Except String Unit :=
  match e with
  | .text s =>
    match pyFloat (PerfMetric.replace " GHz".toList [] 0 s) with
    | none => .error "ValueError"
    | some x => if deviates x expected && !ignoreWarnings then .error "SystemExit" else .ok ()
  | .num _ => .error "AttributeError"
  | .counters _ => .error "AttributeError"

/-- `models/benchmark.py:331-355` `Benchmark.perfctr` on the output of a run. -/
def perfctr (a : Args) (expected : ℚ) (out : List Char) : Except String (List (List Char × Entry)) :=
  match PerfOut.read out with
  | .error e => .error e
  | .ok d =>
    match d.lookup "CPU clock:".toList with
    | none => .ok d
    | some c => match checkClock c expected a.ignoreWarnings with
      | .error e => .error e
      | .ok () => .ok d

/-- `models/standalone_benchmark.py:119-177`; the texts are read from the default region. -/
def perfctrStandalone (a : Args) (expected : ℚ) (seen : List (List Char)) (out : List Char) : Except String RegionOut.State :=
  match RegionOut.read seen out with
  | .error e => .error e
  | .ok s =>
    match (s.get []).lookup "CPU clock:".toList with
    | none => .error "KeyError"
    | some c => match checkClock c expected a.ignoreWarnings with
      | .error e => .error e
      | .ok () => .ok s

end Verif.Guard
