import Mathlib.Algebra.BigOperators.Group.Multiset.Basic
import Mathlib.Data.Int.Order.Basic

/-!
Values of sums of products of symbols.
-/

namespace Verif.Spec

/-- Value of coefficient times symbols. -/
def termValue (σ : String → Int) (t : Int × Multiset String) : Int := t.1 * (t.2.map σ).prod

/-- Value of a sum. -/
def sumValue (σ : String → Int) (p : List (Int × Multiset String)) : Int := (p.map (termValue σ)).sum

/-- An extent that is a symbol. -/
def symbol (s : String) : Int × Multiset String := (1, {s})

/-- A subscript: a loop counter (or none) plus a literal. -/
def counterPlus : Option String → Int → List (Int × Multiset String)
  | some c, l => (1, {c}) :: if l = 0 then [] else [(l, 0)]
  | none, l => if l = 0 then [] else [(l, 0)]

/-- Change the value of one symbol. -/
def upd (σ : String → Int) (c : String) (v : Int) : String → Int := fun s => if s = c then v else σ s

end Verif.Spec
