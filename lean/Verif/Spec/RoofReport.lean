import Verif.Model.RoofReport
import Verif.Props.Transfer

/-!
What the Roofline reports have to state.
-/

namespace Verif.RoofReport

open Verif.Perf Verif.Transfer

/-- Specification: a performance of `p` iterations per second in a unit; `perCl` iterations work on a cacheline of elements. -/
def InUnit (clock perCl : ℚ) (flops : Nat) (p : ℚ) : PerfUnit → ℚ → Prop
  | .itS, v => v = p
  | .flopS, v => v = flops * p
  | .cyIt, v => v * p = clock
  | .cyCl, v => v * p = clock * perCl

/-- Specification: bytes per iteration and bandwidth of a level, for an inner loop with increment one. -/
def demand (x : Input) (r : Row) : ℚ × ℚ := ((r.loads + r.stores) * x.clSize / iterationsPerCl x.clSize x.elSize 1, r.bw)

/-- Specification: those of the transfers between CPU and L1, for the distinct elements that the iterations of a cacheline read and write. -/
def demandL1 (x : Input) : ℚ × ℚ := (((x.reads + x.writes) * x.elSize : Nat) / iterationsPerCl x.clSize x.elSize 1, x.l1.bw)

/-- Specification: all cores together execute `p` iterations per second, if a block of `inc` bytes takes `throughput` cycles. -/
def Executes (x : Input) (throughput : ℚ) (inc : Int) (p : ℚ) : Prop := p * x.elSize * throughput ≤ x.clock * x.cores * |(inc : ℚ)|

/-- The conditions under which the analysis returns. -/
structure Valid (x : Input) : Prop where
  clock : 0 < x.clock
  cores : 0 < x.cores
  el : 0 < x.elSize
  cl : ∃ n, 0 < n ∧ x.clSize = n * x.elSize
  access : 0 < x.reads + x.writes
  l1 : 0 < x.l1.bw
  rows : ∀ r ∈ x.rows, 0 ≤ r.loads ∧ 0 ≤ r.stores ∧ 0 < r.bw

end Verif.RoofReport
