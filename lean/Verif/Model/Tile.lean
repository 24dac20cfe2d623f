import Mathlib.Data.Rat.Defs
import Mathlib.Algebra.Order.Ring.Unbundled.Rat

/-!
Model of the search in `kerncraft/cachetile.py`.
-/

namespace Verif.Tile

/-- State of the search: the window, the best runtime so far, the current length and the lengths simulated so far,
newest first. Runtimes are rational. -/
structure Search where
  minLength : Int
  maxLength : Int
  minRuntime : ℚ
  length : Int
  evaluated : List Int
deriving DecidableEq

/-- Lines 76-86: the first loop. `none`: not finished after `fuel` iterations. -/
def widen (runtime : Int → ℚ) : Nat → Search → Option Search
  | 0, s => if s.length < s.maxLength then none else some s
  | fuel + 1, s =>
    if s.length < s.maxLength then
      let r := runtime s.length
      if s.minRuntime < r then
        widen runtime fuel { s with maxLength := s.length, evaluated := s.length :: s.evaluated }
      else
        widen runtime fuel { s with length := s.length * 2, evaluated := s.length :: s.evaluated }
    else some s

/-- Lines 89-104: the second loop. -/
def narrow (runtime : Int → ℚ) : Nat → Search → Option Search
  | 0, s => if 10 < s.maxLength - s.minLength then none else some s
  | fuel + 1, s =>
    if 10 < s.maxLength - s.minLength then
      let l := (s.maxLength - s.minLength) / 2 + s.minLength
      let r := runtime l
      if r ≤ s.minRuntime then
        narrow runtime fuel
          { s with length := l, evaluated := l :: s.evaluated, minRuntime := r, minLength := l }
      else
        narrow runtime fuel { s with length := l, evaluated := l :: s.evaluated, maxLength := l }
    else some s

/-- Lines 66-75. -/
def startSearch (runtime : Int → ℚ) (minLength maxLength : Int) : Search :=
  ⟨minLength, maxLength, runtime minLength, minLength * 3, [minLength]⟩

/-- What a finished search did: the printed length (`none`: exit code 1) and the simulated lengths. -/
structure Outcome where
  printed : Option Int
  evaluated : List Int
deriving DecidableEq

/-- Lines 66-114, where `maxLength` is the value of line 71. -/
def search (runtime : Int → ℚ) (minLength maxLength : Int) (fuel : Nat) : Option Outcome :=
  (widen runtime fuel (startSearch runtime minLength maxLength)).bind fun s =>
    (narrow runtime fuel s).map fun s =>
      ⟨if s.length ≤ s.maxLength then some s.length else none, s.evaluated⟩

end Verif.Tile
