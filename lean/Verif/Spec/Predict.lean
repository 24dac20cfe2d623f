import Verif.Model.Predict

/-! What C138 compares and assumes. -/

namespace Verif.Predict

open Verif.LayerCond

variable {K : Type} [LinearOrder K]

/-- Caches of the same levels, those of the second list at least as large. -/
def Larger (w : Work K) : List (Cache K) → List (Cache K) → Prop :=
  List.Forall₂ fun c c' => IsTails w.ds c.tails ∧ IsTails w.ds c'.tails ∧ c.size ≤ c'.size

/-- A machine file with values in their ranges: no negative times, throughputs or bandwidths. -/
structure Sane (m : Mach) : Prop where
  clock : 0 ≤ m.clock
  rates : ∀ l ∈ m.levels, ∀ r, l.base.rate = .perCycle r → 0 ≤ r
  penalties : ∀ l ∈ m.levels, ∀ p, l.base.loadPenalty = some p ∨ l.base.storePenalty = some p → 0 ≤ p
  kernels : ∀ k ∈ m.kernels, 0 < k.2.readBytes + k.2.writeBytes ∧ k.2.rwBytes ≤ k.2.writeBytes
  measured : ∀ l ∈ m.levels, ∀ x, l.meas = some x → ∀ r ∈ x.results, ∀ v ∈ r.2, 0 ≤ v

/-- The bandwidths of a level do not fall when there is less traffic. -/
def Steady (m : Mach) (cores : Option Nat) (i : Nat) : Prop :=
  ∀ (ld st ld' st' : Nat) (b : ℚ), ld' ≤ ld → st' ≤ st → bandwidth m cores i ld st = .ok b →
    ∃ b', bandwidth m cores i ld' st' = .ok b' ∧ b ≤ b'

end Verif.Predict
