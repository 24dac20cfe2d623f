import Verif.Model.Topology

/-!
Model of the use of `likwid-bench` (`kerncraft/machinemodel.py`): the command and the reading of its output in `measure_bw`
(790-815), `find_fastest_bench_kernel` (818-840) and `get_available_bench_kernels` (843-865). The output of a run is an argument, `none`
for a run that ends with an error code. Messages are not modelled.
-/

namespace Verif.BenchRun

open Verif.Text Verif.Clean Verif.Units

/-! ### Measuring -/

/-- Lines 796-801: the arguments for a socket. The division of the floats is exact for numbers below 2^53. -/
def group (size tpc maxTpc cores socket : Nat) : List (List Char) :=
  ["-W".toList, 'S' :: showNat socket ++ ':' :: showNat size ++ "kB:".toList ++ showNat (tpc * cores) ++ ":1:".toList ++
    showNat (maxTpc / tpc)]

/-- Lines 794-803: the command. -/
def command (kernel : List Char) (size tpc maxTpc cores sockets : Nat) : Except String (List (List Char)) :=
  if tpc = 0 ∧ sockets ≠ 0 then .error "ZeroDivisionError"
  else .ok (["likwid-bench".toList, "-t".toList, kernel] ++ (List.range sockets).flatMap (group size tpc maxTpc cores))

/-- `[0-9]+(?:\.[0-9]+)?` at the start: value and rest. A point without digits behind it is not part of the number. -/
def matchDec (s : List Char) : Option (ℚ × List Char) :=
  let a := s.takeWhile isDigit
  if a = [] then none
  else match s.dropWhile isDigit with
    | '.' :: r =>
      if r.takeWhile isDigit = [] then some (natOf a, '.' :: r)
      else some (natOf a + natOf (r.takeWhile isDigit) / 10 ^ (r.takeWhile isDigit).length, r.dropWhile isDigit)
    | r => some (natOf a, r)

/-- Line 811: `MByte/s:\s+([0-9]+(?:\.[0-9]+)?)\s*$` at the start of a line. -/
def matchRate (s : List Char) : Option ℚ :=
  if startsWith "MByte/s:".toList s then
    let r := s.drop "MByte/s:".toList.length
    match matchDec (r.dropWhile isSpace) with
    | none => none
    | some (x, r2) =>
      if r.takeWhile isSpace ≠ [] ∧ (r2.dropWhile isSpace = [] ∨ '\n' ∈ r2.takeWhile isSpace) then some x else none
  else none

/-- Lines 807-815: the bandwidth. -/
def measure (run : Option (List Char)) : Except String Units.Unit :=
  match run with
  | none => .error "CalledProcessError"
  | some [] => .error "SystemExit"
  | some out => match Topology.search matchRate true out with
    | none => .error "ValueError"
    | some x => mk2 x "MB/s".toList

/-! ### The fastest kernel -/

/-- Lines 825-834: the kernels with their bandwidths. -/
def results (run : List Char → Option (List Char)) : List (List Char) → Except String (List (Units.Unit × List Char))
  | [] => .ok []
  | k :: ks => match measure (run k) with
    | .ok b => (results run ks).map ((b, k) :: ·)
    | .error e => if e = "ValueError" ∨ e = "CalledProcessError" then results run ks else .error e

/-- `a > b` for pairs of bandwidth and name; names are compared by their characters. -/
def greater (a b : Units.Unit × List Char) : Bool :=
  if a.1.base = b.1.base then decide (b.2 < a.2) else decide (b.1.base < a.1.base)

/-- Lines 836-840: an error without results, or `max(results)[1]`. -/
def best : List (Units.Unit × List Char) → Except String (List Char)
  | [] => .error "RuntimeError"
  | x :: xs => .ok (xs.foldl (fun m y => if greater y m then y else m) x).2

/-- Lines 818-840 `find_fastest_bench_kernel` -/
def fastest (run : List Char → Option (List Char)) (kernels : List (List Char)) : Except String (List Char) := do
  let rs ← results run kernels
  best rs

/-! ### Available kernels -/

/-- `s.split(p)[0]` -/
def before (p : List Char) : List Char → List Char
  | [] => []
  | c :: cs => if startsWith p (c :: cs) then [] else c :: before p cs

/-- `p in s` -/
def contains (p : List Char) : List Char → Bool
  | [] => p.isEmpty
  | c :: cs => startsWith p (c :: cs) || contains p cs

/-- Lines 843-865 `get_available_bench_kernels` from the output on. -/
def available (pre : List Char) (excludes : List (List Char)) (out : List Char) : List (List Char) :=
  ((splitNl (strip out)).map (before " - ".toList)).filter fun l => startsWith pre l && !excludes.any fun e => contains e l

/-- Lines 330-332 -/
def choose (pre : List Char) (excludes : List (List Char)) (out : List Char) (run : List Char → Option (List Char)) :
    Except String (List Char) :=
  fastest run (available pre excludes out)

end Verif.BenchRun
