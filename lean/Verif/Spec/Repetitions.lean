import Verif.Model.Repetitions

/-!
Number of repetitions of a region: that of its own argument, or of the argument without region.
-/

namespace Verif.Repetitions

/-- The argument for a region. -/
def argOf (args : List (String × Arg)) (r : String) : Option Arg := (args.lookup r).or (args.lookup "")

/-- The number of repetitions of a region. -/
def Count (args : List (String × Arg)) (calls : String → Int) (define : List (String × Int)) (r : String) (n : Int) : Prop :=
  match argOf args r with
  | some .marker => n = calls r
  | some (.number m) => n = m
  | some (.var x) => define.lookup x = some n
  | none => False

end Verif.Repetitions
