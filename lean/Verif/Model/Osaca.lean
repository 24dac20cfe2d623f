import Mathlib.Data.Rat.Defs
import Mathlib.Algebra.Order.Field.Rat

/-!
Model of the results that are taken from OSACA in `kerncraft/incore_model.py:764-782`. OSACA's analysis of the marked block is a parameter.
-/

namespace Verif.Osaca

/-- What OSACA gives: names of ports (line 777), occupation of each port (`get_throughput_sum`, line 765), latencies of loop-carried dependencies (line 767). -/
structure Analysis where
  ports : List String
  pressure : List ℚ
  latencies : List ℚ

/-- Assignment to a key of an ordered dictionary. -/
def set (d : List (String × ℚ)) (k : String) (v : ℚ) : List (String × ℚ) :=
  match d with
  | [] => [(k, v)]
  | (a, b) :: d => if a = k then (a, v) :: d else (a, b) :: set d k v

/-- Lines 768-770. -/
def maxLcd (l : List ℚ) : ℚ := l.foldl max 0

/-- Python's `max` of a list. -/
def maximum : List ℚ → Except String ℚ
  | [] => .error "ValueError"
  | x :: xs => .ok (xs.foldl max x)

/-- Results. -/
structure Result where
  portCycles : List (String × ℚ)
  throughput : ℚ
  lcd : ℚ

/-- Lines 764-779. -/
def analyse (a : Analysis) : Except String Result := do
  let lcd := maxLcd a.latencies
  let t ← maximum (a.pressure ++ [lcd])
  return ⟨(a.ports.zip a.pressure).foldl (fun d p => set d p.1 p.2) [], t, lcd⟩

end Verif.Osaca
