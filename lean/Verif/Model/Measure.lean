import Verif.Model.Bench
import Verif.Model.Iteration
import Mathlib.Data.Rat.Floor

/-!
The measurements of the benchmark model (`models/benchmark.py:357-449`): number of repetitions, iterations per repetition
and the counters of the symbols. Floating point numbers are rational numbers here.
-/

namespace Verif.Measure

open Verif.Bench

/-! ### Number of repetitions -/

/-- Lines 380-384. With numbers that are not rounded, `2.0 // 0.2` is 10; in Python it is 9.0. -/
def nextRepetitions (repetitions : Int) (timePer : ℚ) : Int :=
  if timePer ≠ 0 then ⌊2 / timePer⌋ else repetitions * 10

/-- Lines 378-388: `runtime n r` is the runtime that the `n`-th run reports for `r` repetitions. The result has the
repetitions, the runtime and the time per repetition. `error` is a ZeroDivisionError in line 388; `none`: no result after
`fuel` runs. -/
def repeatLoop (runtime : Nat → Int → ℚ) : Nat → Nat → ℚ → Int → ℚ → Option (Except String (Int × ℚ × ℚ))
  | 0, _, last, repetitions, timePer => if last < 3 / 2 then none else some (.ok (repetitions, last, timePer))
  | fuel + 1, n, last, repetitions, timePer =>
    if last < 3 / 2 then
      let r := nextRepetitions repetitions timePer
      if r = 0 then some (.error "ZeroDivisionError")
      else repeatLoop runtime fuel (n + 1) (runtime n r) r (runtime n r / r)
    else some (.ok (repetitions, last, timePer))

/-- Lines 366-388: `iterations` is the command line argument. -/
def determineRepetitions (runtime : Nat → Int → ℚ) (iterations : Int) (fuel : Nat) :
    Option (Except String (Int × ℚ × ℚ)) :=
  repeatLoop runtime fuel 0 0 (iterations / 10) (2 / 10)

/-! ### Iterations per repetition -/

/-- Lines 395-399; a step of zero is a division by zero, which sympy evaluates to an infinite value. -/
def iterationsPerRepetition : List Iteration.Loop → Option ℚ
  | [] => some 1
  | l :: ls => do
    if l.incr = 0 then none
    else
      let n ← iterationsPerRepetition ls
      return ((l.stop - l.start : Int) : ℚ) / l.incr * n

/-! ### Counters -/

section
variable {N D P R S V : Type} [DecidableEq N] [DecidableEq D] [DecidableEq P] [DecidableEq R] [DecidableEq S]

/-- Assignment to a key of a dictionary. -/
def put {K W : Type} [DecidableEq K] (k : K) (v : W) : List (K × W) → List (K × W)
  | [] => [(k, v)]
  | (k', v') :: l => if k' = k then (k', v) :: l else (k', v') :: put k v l

/-- Value of a key of a dictionary. -/
def get {K W : Type} [DecidableEq K] (k : K) : List (K × W) → Option W
  | [] => none
  | (k', v) :: l => if k' = k then some v else get k l

/-- Lines 238-252 `perfctr`: counters by event and by register with parameters. `count i e` is the value that likwid
reports for the event `e` in run `i`. Only lines of counters are modelled. -/
def perfctr (count : Nat → N × R × P → V) (i : Nat) (run : List (N × R × P)) : List (N × List ((R × P) × V)) :=
  run.foldl (fun d e => put e.1 (put (e.2.1, e.2.2) (count i e) ((get e.1 d).getD [])) d) []

/-- `measured_ctrs.update(r)`, line 436. -/
def update {K W : Type} [DecidableEq K] (d r : List (K × W)) : List (K × W) := r.foldl (fun d x => put x.1 x.2 d) d

/-- Lines 431-436. -/
def measureRuns (count : Nat → N × R × P → V) : Nat → List (List (N × R × P)) → List (N × List ((R × P) × V)) →
    List (N × List ((R × P) × V))
  | _, [], d => d
  | i, run :: runs, d => measureRuns count (i + 1) runs (update d (perfctr count i run))

/-- Lines 446-448. -/
def matchRegs (sym : S) (params : P) (counters : List ((R × P) × V)) (regs : List R) (res : List (S × V)) : List (S × V) :=
  regs.foldl (fun res r => match get (r, params) counters with
    | some v => put sym v res
    | none => res) res

/-- Lines 439-448. -/
def matchSymbols (opts : D → Gen R) (measured : List (N × List ((R × P) × V))) :
    List (S × Ev N D P) → List (S × V) → Except String (List (S × V))
  | [], res => .ok res
  | (sym, e) :: rest, res =>
    match get e.name measured with
    | none =>
      if (opts e.regs).vals = [] then (if (opts e.regs).raises then .error "AttributeError" else matchSymbols opts measured rest res)
      else .error "KeyError"
    | some counters =>
      if (opts e.regs).raises then .error "AttributeError"
      else matchSymbols opts measured rest (matchRegs sym e.params counters (opts e.regs).vals res)

/-- Lines 427-448: plan, measure and match; `none`: the planner is still running after `fuel` rounds. -/
def counters (opts : D → Gen R) (count : Nat → N × R × P → V) (symbols : List (S × Ev N D P)) (fuel : Nat) :
    Option (Except String (List (S × V))) :=
  (buildRuns opts (symbols.map Prod.snd) fuel).map fun
    | .error x => .error x
    | .ok runs => matchSymbols opts (measureRuns count 0 runs []) symbols []

end

end Verif.Measure
