import Mathlib.Data.Int.Init

/-!
Model of parts of `kerncraft/cacheprediction.py`: comparison of keys and the schedule of the cache simulation.
-/

namespace Verif.Sim

/-! ### Keys (`cacheprediction.py:24-35`) -/

/-- Python's `<` on tuples of integers. -/
def tupleLt : List Int → List Int → Bool
  | [], [] => false
  | [], _ :: _ => true
  | _ :: _, [] => false
  | a :: as, b :: bs => if a = b then tupleLt as bs else decide (a < b)

/-- Lines 24-35 `uneven_tuple_cmp`. -/
def unevenCmp (a b : List Int) : Int :=
  let lengthDiff := max a.length b.length - min a.length b.length
  let a' := if a.length < b.length then List.replicate lengthDiff 0 ++ a else a
  let b' := if a.length < b.length then b else if b.length < a.length then List.replicate lengthDiff 0 ++ b else b
  if tupleLt b' a' then 1 else if tupleLt a' b' then -1 else 0

/-! ### Simulation (`cacheprediction.py:540-679`) -/

/-- Line 20-21 `ceildiv`. -/
def ceildiv (a b : Int) : Int := -((-a) / b)

/-- What the simulation depends on: sizes in bytes and elements, the increment of the inner loop, the total number of
iterations, the first (write) offset of an iteration in bytes, and the number of invalid cache entries after each
step of the warm-up. -/
structure Setup where
  elementSize : Int
  cachelineSize : Int
  clBits : Nat
  increment : Int
  maxIterations : Int
  maxCacheSize : Int
  firstOffset : Int → Int
  invalid : Nat → Int

/-- Lines 650-679 `_align_iteration_with_cl_boundary`; shifting right and left by `clBits` clears the low bits. -/
def align (s : Setup) (iteration : Int) (subtract : Bool) : Int :=
  let off := s.firstOffset iteration
  let diff := off - off / 2 ^ s.clBits * 2 ^ s.clBits
  if diff = 0 then iteration
  else if subtract then iteration - diff / s.elementSize / s.increment
  else iteration + (s.cachelineSize / s.elementSize - diff / s.elementSize) / s.increment

/-- State of the first phase: last iteration, complete sweep, step, simulated ranges (newest first). -/
structure Warmup where
  iteration : Int
  complete : Bool
  step : Nat
  ranges : List (Int × Int)
deriving DecidableEq

/-- Line 561. -/
def warmupIncrement (s : Setup) : Int := ceildiv (s.maxCacheSize / s.elementSize) (100 / 2)

/-- Lines 566-583: one iteration of the loop. -/
def warmupStep (s : Setup) (w : Warmup) : Warmup :=
  let next := w.iteration + warmupIncrement s
  if s.maxIterations < next then ⟨s.maxIterations, true, w.step + 1, (w.iteration, s.maxIterations) :: w.ranges⟩
  else ⟨next, w.complete, w.step + 1, (w.iteration, next) :: w.ranges⟩

/-- Lines 566-583; `invalid k` is the count after `k` steps. `none`: not finished after `fuel` iterations. -/
def warmupLoop (s : Setup) : Nat → Warmup → Option Warmup
  | fuel, w =>
    if 0 < s.invalid w.step ∧ w.step < 100 ∧ w.complete = false then
      match fuel with
      | 0 => none
      | fuel + 1 => warmupLoop s fuel (warmupStep s w)
    else some w

/-- Lines 587-601. -/
def phase2 (s : Setup) (w : Warmup) : Warmup :=
  if w.complete then { w with iteration := 0 }
  else if s.maxIterations - 100000 < w.iteration then
    { w with iteration := 0, complete := true, ranges := (w.iteration, s.maxIterations) :: w.ranges }
  else w

/-- Lines 610-616. -/
def phase3 (s : Setup) (w : Warmup) : Warmup :=
  let next := align s w.iteration false
  if next = w.iteration then w else { w with iteration := next, ranges := (w.iteration, next) :: w.ranges }

/-- Lines 566-633: the warm-up ranges and the measured range. -/
def simulate (s : Setup) (fuel : Nat) : Option (List (Int × Int) × (Int × Int)) :=
  (warmupLoop s fuel ⟨0, false, 0, []⟩).map fun w =>
    let w := phase3 s (phase2 s w)
    (w.ranges.reverse, (w.iteration, align s (min (w.iteration + 100000) (s.maxIterations - 1)) true))

end Verif.Sim
