import Verif.Model.Iteration

namespace Verif.Iteration

/-! ### Specification: what a C loop nest executes -/

/-- Index values of `for (i = s; i < e; i += c)`, in order of execution (`c > 0`; a non-positive
increment is not accepted as terminating loop and gives no values). -/
def cLoop (s e c : Int) : List Int :=
  if s < e ∧ 0 < c then s :: cLoop (s + c) e c else []
termination_by (e - s).toNat
decreasing_by omega

/-- Index tuples of a loop nest (outermost loop first) in order of execution of the innermost body. -/
def cNest : List Loop → List (List Int)
  | [] => [[]]
  | l :: ls => (cLoop l.start l.stop l.incr).flatMap (fun i => (cNest ls).map (fun t => i :: t))

end Verif.Iteration
