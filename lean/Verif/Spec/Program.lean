import Verif.Spec.Parallel

/-! What C153 says: sequences of random numbers, and the memory that a generated program starts with. -/

namespace Verif.Parallel

variable {S V : Type}

/-- The numbers that a generator gives, one after the other. -/
def sequence (next : S → V × S) (s : S) : Nat → V
  | 0 => (next s).1
  | n + 1 => sequence next (next s).2 n

/-- Elements that the loop nest accesses. -/
def Accessed (iters : List (List (Assign Name V))) (b : String) (k : Int) : Prop := ∃ i ∈ iters, ∃ a ∈ i, .elem b k ∈ a.places

/-- Scalars have the first numbers of the sequence, and all elements that the loop nest accesses have the next one. -/
structure Starts (numbers : Nat → V) (scalars : List String) (iters : List (List (Assign Name V))) (start : Name → V) : Prop where
  scalar : ∀ (i : Nat) (s : String), scalars[i]? = some s → start (.scalar s) = numbers i
  elem : ∀ b k, Accessed iters b k → start (.elem b k) = numbers scalars.length

end Verif.Parallel
