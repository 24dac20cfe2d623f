import Verif.Model.Reports

/-!
What a report should be: written to the requested file, apart from warnings.
-/

namespace Verif.Reports

/-- Everything is printed to the file given, apart from warnings, which may go to the standard error. -/
def Complete (out : Stream) (ps : List (Stream × Piece)) : Prop := ∀ p ∈ ps, p.1 = out ∨ p = (.stderr, .warning)

/-- What is printed, wherever. -/
def pieces (ps : List (Stream × Piece)) : List Piece := ps.map (·.2)

/-- When the report of a model is written to a file completely. -/
def Written (r : Run) : Model → Prop
  | .ecm => r.verbose ≤ 1
  | .ecmData => r.penalty = false
  | .ecmCpu => True
  | .rooflineFlop => True
  | .rooflineAsm => True
  | .benchmark => r.verbose ≤ 1 ∧ r.noPheno = true
  | .standalone => r.regions = []
  | .lc => r.verbose ≤ 2 ∧ r.lcs = []

/-- A number in FLOP/s is shown. -/
def ShowsFlops (ps : List (Stream × Piece)) : Prop := ∃ n o, Piece.value n o "FLOP/s" ∈ pieces ps

/-- What a benchmark measures, with units. -/
def measurements : List (String × String) :=
  [("runtime", "cy/CL"), ("memory volume", "B"), ("performance", "FLOP/s"), ("performance", "LUP/s"), ("performance", "It/s")]

/-- What it shows in addition if asked for more. -/
def moreMeasurements : List (String × String) := [("runtime", "s"), ("memory bandwidth", "B/s")]

/-- The numbers and conditions that the report of a model is to show: those asked for by `--verbose` included. -/
inductive Result (r : Run) : Model → Piece → Prop
  | cycles (l : String) : l ∈ r.cycles → Result r .ecmData (.value "cycles" l r.unit)
  | penalty : r.penalty = true → Result r .ecmData (.value "penalty cycles" "" "cy/CL")
  | comp : Result r .ecmCpu (.value "T_comp" "" "cy/CL")
  | regL1 : Result r .ecmCpu (.value "T_RegL1" "" "cy/CL")
  | throughput : 1 < r.verbose → Result r .ecmCpu (.value "cl throughput" "" r.unit)
  | total : Result r .ecm (.value "total cycles" "" r.unit)
  | cpuPart (p : Piece) : 1 < r.verbose → Result r .ecmCpu p → Result r .ecm p
  | dataPart (p : Piece) : 1 < r.verbose → Result r .ecmData p → Result r .ecm p
  | flopCpu : 0 < r.verbose → Result r .rooflineFlop (.value "performance" "CPU" r.unit)
  | flopLevel (l : String) : 0 < r.verbose → some l ∈ r.bottlenecks → Result r .rooflineFlop (.value "performance" l r.unit)
  | flopMax : r.cpuBound = true → Result r .rooflineFlop (.value "max_perf" "" "FLOP/s")
  | flopMem : r.cpuBound = false → Result r .rooflineFlop (.value "bottleneck" "" r.unit)
  | flopIntensity : r.cpuBound = false → Result r .rooflineFlop (.value "arithmetic intensity" "" "It/B")
  | asmCpu : 0 < r.verbose → Result r .rooflineAsm (.value "performance" "CPU" r.unit)
  | asmLevel (l : String) : 0 < r.verbose → some l ∈ r.bottlenecks → Result r .rooflineAsm (.value "performance" l r.unit)
  | asmMax : r.cpuBound = true → Result r .rooflineAsm (.value "cpu bottleneck" "" r.unit)
  | asmMem : r.cpuBound = false → Result r .rooflineAsm (.value "bottleneck" "" r.unit)
  | asmIntensity : r.cpuBound = false → Result r .rooflineAsm (.value "arithmetic intensity" "" "It/B")
  | measured (n u : String) : (n, u) ∈ measurements → Result r .benchmark (.value n "" u)
  | measuredMore (n u : String) : 0 < r.verbose → (n, u) ∈ moreMeasurements → Result r .benchmark (.value n "" u)
  | measuredEcm : r.noPheno = false → Result r .benchmark (.value "ECM" "" "cy/CL")
  | region (g n u : String) : g ∈ r.regions → Result r .benchmark (.value n "" u) → Result r .standalone (.value n g u)
  | cache (c : String × List String) : c ∈ r.lcs → Result r .lc (.info "layer conditions" c.1)
  | condition (c : String × List String) (l : String) : c ∈ r.lcs → l ∈ c.2 → Result r .lc (.info "condition" l)

/-- A piece with a number, or one of layer conditions. -/
def IsResult : Piece → Prop
  | .value _ _ _ => True
  | .info n _ => n = "layer conditions" ∨ n = "condition"
  | .warning => False

/-- The cells of a row stand below the names of their metrics; `-` stands for no value. -/
structure Below (head : List String) (metrics : List (String × String)) (row : Cells) : Prop where
  length : row.length = head.length
  cell : ∀ (i : Nat) (n c : String), head[i]? = some n → row[i]? = some c → ((n, c) ∈ metrics ∨ n ∉ metrics.map (·.1) ∧ c = "-")

/-- All values have a column. -/
def Shown (head : List String) (metrics : List (String × String)) : Prop := ∀ m ∈ metrics, m.1 ∈ head

end Verif.Reports
