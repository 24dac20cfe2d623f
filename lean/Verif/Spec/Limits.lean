import Verif.Model.Limits

/-! What C144 compares. -/

namespace Verif.Limits

open Verif.Perf Verif.Predict

/-- A predicted performance is not above a limit. -/
def AtMost : Val → WithTop ℚ → Prop
  | .fin q, p => (q : WithTop ℚ) ≤ p
  | .inf, p => p = ⊤
  | .nan, _ => False

/-- The memory is the last level of the hierarchy; its bus is used in one direction at a time. -/
def HalfDuplex (m : Mach) : Prop :=
  ∃ l, m.levels.getLast? = some l ∧ 1 < m.levels.length ∧ l.base.rate = .memory ∧ l.base.duplex = "half-duplex"

/-- The measurements of the memory are complete: each number of cores once, one result of each kernel for each of them,
and the first ones are those of a NUMA domain. -/
def Complete (m : Mach) : Prop :=
  ∀ l x, m.levels.getLast? = some l → l.meas = some x → x.cores.Nodup ∧ ∀ k r, x.results.lookup k = some r → r.length = x.cores.length

/-- The numbers of cores that have been measured within a NUMA domain. -/
def counts (m : Mach) : List Nat :=
  match m.levels.getLast? with
  | some l => match l.meas with
    | some x => x.cores.take l.maxCores
    | none => []
  | none => []

/-- The limits that the Roofline model has for the memory, for all numbers of cores of a NUMA domain. -/
def memLimits (m : Mach) (elSize : Nat) (loads stores : List Nat) : Set (WithTop ℚ) :=
  {p | ∃ c ∈ counts m, memLimit m elSize loads stores c = some p}

end Verif.Limits
