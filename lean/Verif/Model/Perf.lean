import Mathlib.Algebra.Order.Ring.Rat
import Mathlib.Algebra.Order.Floor.Ring
import Mathlib.Data.Rat.Floor
import Mathlib.Order.WithBot
import Mathlib.Data.List.Sort

/-!
Model of `kerncraft/models/ecm.py`, `kerncraft/models/roofline.py` and `ceildiv` of
`kerncraft/cacheprediction.py`. Floats are rationals; `inf`/`nan` are explicit where the code meets them.
-/

namespace Verif.Perf

/-! ### Helpers -/

/-- `ecm.py:15-18` `round_to_next`: `int(base * math.ceil(float(x)/base))`; `none`: ZeroDivisionError.
`int` truncates towards zero. -/
def roundToNext (x base : ℚ) : Option Int :=
  if base = 0 then none
  else
    let v := base * (⌈x / base⌉ : Int)
    some (if 0 ≤ v then ⌊v⌋ else ⌈v⌉)

/-- `ecm.py:35-40`: the collecting loop of `blocking`. -/
def blockingLoop (blockSize boundary : Int) : List Int → List Int → List Int
  | blocks, [] => blocks
  | blocks, i :: is =>
    let b := (i - boundary).fdiv blockSize
    blockingLoop blockSize boundary (if b ∈ blocks then blocks else blocks ++ [b]) is

/-- `ecm.py:21-43` `blocking`; `none`: ZeroDivisionError (only if there is an index). -/
def blocking (indices : List Int) (blockSize boundary : Int) : Option (List Int) :=
  if blockSize = 0 ∧ indices ≠ [] then none
  else some ((blockingLoop blockSize boundary [] indices).insertionSort (· ≤ ·))

/-- `cacheprediction.py:20-21` `ceildiv`: `-(-a // b)`. -/
def ceildiv (a b : Int) : Option Int := if b = 0 then none else some (-((-a).fdiv b))

/-! ### ECM composition (`ecm.py:452-490`) -/

/-- State of the composition loop: overlapping list, non-overlapping list, `nonoverlap_region`. -/
structure Compose where
  ol : List ℚ
  nol : List ℚ
  region : Bool
deriving DecidableEq, Repr

/-- Lines 464-481: one further level with its overlap flag and cycles. -/
def composeStep (s : Compose) (l : Bool × ℚ) : Except String Compose :=
  if l.1 then
    if s.region then .error "ValueError" else .ok { s with ol := s.ol ++ [l.2] }
  else .ok { s with nol := s.nol ++ [l.2], region := true }

/-- Lines 453-461: start with `T_comp` and `T_RegL1` of the first level. -/
def composeInit (tComp tRegL1 : ℚ) (overlap0 : Bool) : Compose :=
  if overlap0 then ⟨[tComp, tRegL1], [], false⟩ else ⟨[tComp], [tRegL1], true⟩

/-- Lines 453-485: the two lists, penalty included. -/
def compose (tComp tRegL1 : ℚ) (overlap0 : Bool) (levels : List (Bool × ℚ)) (penalty : ℚ) :
    Except String (List ℚ × List ℚ) :=
  match levels.foldlM composeStep (composeInit tComp tRegL1 overlap0) with
  | .error e => .error e
  | .ok s => .ok (s.ol, if penalty ≠ 0 then s.nol ++ [penalty] else s.nol)

/-- Line 490: `max(sum(ECM_nOL), *ECM_OL)`. -/
def total (ol nol : List ℚ) : ℚ := ol.foldl max nol.sum

/-! ### Multi-core scaling (`ecm.py:492-558`) -/

/-- Lines 508-517: `utilization[c]`, with `utilization[0] = 0`. -/
def util (tMem tEcm : ℚ) : Nat → ℚ
  | 0 => 0
  | c + 1 =>
    let d := tEcm + util tMem tEcm c * c * tMem / 2
    if (c + 1 : Nat) * tMem > d then 1 else (c + 1 : Nat) * tMem / d

/-- Lines 509, 513: `scaling cores`: the first saturated core count (`none`: inf). -/
def scalingCores (tMem tEcm : ℚ) (numa : Nat) : Option Nat :=
  ((List.range numa).map (· + 1)).find? fun c =>
    decide ((c : ℚ) * tMem > tEcm + util tMem tEcm (c - 1) * (c - 1 : Nat) * tMem / 2)

/-- Lines 520-558: predicted cycles per cacheline for `cores` cores. Divisions by zero are errors. -/
def scaling (tMem tEcm : ℚ) (numa perSocket sockets cores : Nat) : Except String ℚ :=
  if tMem = 0 then
    if cores = 0 then .error "ZeroDivisionError" else .ok (tEcm / cores)
  else
    let unsat : Bool := match scalingCores tMem tEcm numa with
      | none => true
      | some s => decide (cores ≤ s)
    if unsat ∧ tEcm = 0 then .error "ZeroDivisionError"
    else
      let rec_tp := if unsat then tEcm / (tEcm / tMem) else tMem
      if 0 < cores ∧ cores ≤ numa then .ok (rec_tp / util tMem tEcm cores)
      else if cores ≤ perSocket * sockets then
        if numa = 0 then .error "IndexError"
        else if cores = 0 then .error "ZeroDivisionError"
        else .ok (rec_tp / util tMem tEcm numa * numa / cores)
      else .error "ValueError"

/-! ### Unit conversions (`ecm.py:174-196`, `350-371`) -/

/-- Float results. -/
inductive Val
  | fin (q : ℚ)
  | inf
  | nan
deriving DecidableEq, Repr

/-- `inf * flops`. -/
def Val.scale : Val → ℚ → Val
  | .fin q, k => .fin (q * k)
  | .inf, k => if k = 0 then .nan else .inf
  | .nan, _ => .nan

/-- The dictionary returned by `conv_cy` (base values). -/
structure Conv where
  itS : Val
  cyCl : ℚ
  cyIt : ℚ
  flopS : Val
deriving DecidableEq, Repr

/-- `ECMData.conv_cy` (174-196); `none`: ZeroDivisionError. -/
def convData (clock cyCl : ℚ) (clSize elSize : Nat) (flops : Nat) : Option Conv :=
  if elSize = 0 then none
  else
    let el := clSize / elSize
    if el = 0 then none
    else
      let itS : Val := if cyCl ≠ 0 then .fin (clock / cyCl * el) else .inf
      some ⟨itS, cyCl, cyCl / el, itS.scale flops⟩

/-- `ECMCPU.conv_cy` (350-371); `cy_it` is a product. -/
def convCPU (clock cyCl : ℚ) (clSize elSize : Nat) (flops : Nat) : Option Conv :=
  if elSize = 0 then none
  else
    let el := clSize / elSize
    let itS : Val := if cyCl = 0 then .inf else .fin (clock / cyCl * el)
    some ⟨itS, cyCl, cyCl * el, itS.scale flops⟩

/-! ### In-core time (`ecm.py:308-335`) -/

/-- Result of `ECMCPU.analyze`. -/
structure Incore where
  portCycles : List (String × ℚ)
  clThroughput : ℚ
  tComp : ℚ
  tRegL1 : ℚ
deriving DecidableEq, Repr

/-- `max([v for k, v in ... if k in ports] + [0])` -/
def portMax (cycles : List (String × ℚ)) (ports : List String) : ℚ :=
  ((cycles.filter (fun c => ports.contains c.1)).map (·.2)).foldr max 0

/-- Lines 308-335. `sys.exit(1)` is `none`. -/
def analyzeCPU (throughput : ℚ) (cycles : List (String × ℚ)) (olPorts nolPorts : List String)
    (pointerIncrement : Int) (elSize clSize : Nat) : Option Incore :=
  if elSize = 0 then none
  else
    let elements : Nat := (pointerIncrement.fdiv elSize).natAbs
    let blockSize := elements * elSize
    if blockSize = 0 then none
    else
      let ratio : ℚ := (clSize : ℚ) / blockSize
      let pc := cycles.map fun c => (c.1, c.2 * ratio)
      let cl := throughput * ratio
      let tComp := portMax pc olPorts
      let tReg := portMax pc nolPorts
      some ⟨pc, cl, if tReg < cl then cl else tComp, tReg⟩

/-! ### Roofline (`roofline.py:100-155`, `319-328`); `⊤` is `inf` -/

/-- Lines 120-155: fold over the levels after CPU-L1. State: next index, bottleneck, minimum. -/
def roofStep (s : Nat × Nat × WithTop ℚ) (p : WithTop ℚ) : Nat × Nat × WithTop ℚ :=
  if p < s.2.2 then (s.1 + 1, s.1, p) else (s.1 + 1, s.2)

/-- `calculate_cache_access`: bottleneck index and minimum performance. The performance of CPU-L1 is `none` if
nothing is loaded; `conv_perf` then fails. -/
def roofline (l1 : Option (WithTop ℚ)) (rest : List (WithTop ℚ)) : Except String (Nat × WithTop ℚ) :=
  match l1 with
  | none => .error "TypeError"
  | some p => .ok (rest.foldl roofStep (1, 0, p)).2

/-- One step of the re-evaluation in `RooflineASM.analyze` (321-327). -/
def roofAsmStep (s : Nat × Option Nat × WithTop ℚ) (p : WithTop ℚ) : Nat × Option Nat × WithTop ℚ :=
  if s.1 = 0 then (1, s.2)
  else if p < s.2.2 then (s.1 + 1, some s.1, p) else (s.1 + 1, s.2)

/-- Lines 318-327 over all levels. -/
def rooflineAsm (levels : List (WithTop ℚ)) : Option Nat × WithTop ℚ :=
  (levels.foldl roofAsmStep (0, none, ⊤)).2

end Verif.Perf
