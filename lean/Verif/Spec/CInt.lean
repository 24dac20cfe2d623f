import Verif.Model.Layout

/-!
Evaluation of C expressions with signed integers: a result outside the range of the type is an overflow, whose behaviour
is undefined. `m` is the largest number of the type.
-/

namespace Verif.Spec

open Verif.Layout

/-- The number if the type has it. -/
def inType (m v : Int) : Option Int := if -(m + 1) ≤ v ∧ v ≤ m then some v else none

/-- Value of an expression; `none` if a variable is unknown or some intermediate result overflows. -/
def cEval (m : Int) (env : String → Option Int) : Sym → Option Int
  | .num n => inType m n
  | .var s => match env s with
    | some v => inType m v
    | none => none
  | .add a b => match cEval m env a, cEval m env b with
    | some x, some y => inType m (x + y)
    | _, _ => none
  | .sub a b => match cEval m env a, cEval m env b with
    | some x, some y => inType m (x - y)
    | _, _ => none
  | .mul a b => match cEval m env a, cEval m env b with
    | some x, some y => inType m (x * y)
    | _, _ => none

end Verif.Spec
