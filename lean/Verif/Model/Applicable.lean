import Verif.Model.Split

/-!
Model of the checks whether layer conditions can be applied to a kernel (`kerncraft/cacheprediction.py:293-356`), for
subscripts that are sums of terms with integer coefficients and extents that are single terms, as in `Split`.
-/

namespace Verif.Applicable

open Verif.Split

/-- An entry of the loop stack, outermost loop first. -/
structure Loop where
  index : String
  increment : Int
deriving DecidableEq, Repr

/-- A reference to an array: its extents and the subscripts. Scalars are left out (306-311, 348-349). -/
structure Ref where
  dims : List Term
  subs : List Poly

/-- Line 317: the loop counters in a term. -/
def countersIn (loops : List Loop) (t : Term) : List String := (loops.map (·.index)).dedup.filter (· ∈ t.2)

/-- Lines 329-331: number of multiplications, without the powers of the counter. A number counts as one factor. -/
def multiplications (t : Term) (c : String) : Nat := (t.2.filter (· ≠ c)).card + if t.1 = 1 then 0 else 1

/-- Lines 314-341: check of a term. -/
def checkTerm (loops : List Loop) (t : Term) : Bool :=
  match countersIn loops t with
  | [] => true
  | [c] => (loops.reverse[multiplications t c]?).any (·.index == c)
  | _ => false

/-- `term.subs(c, v)` -/
def substT (c : String) (v : Int) (t : Term) : Term := (t.1 * v ^ t.2.count c, t.2.filter (· ≠ c))

/-- Line 352: difference of a subscript between the values `1 + increment` and 1 of the counter. -/
def difference (c : String) (inc : Int) (p : Poly) : Poly :=
  collect (p.map (substT c (1 + inc)) ++ p.map fun t => mulT (-1, 0) (substT c 1 t))

/-- Lines 293-356: `ok` if layer conditions are applied. -/
def applicable (loops : List Loop) (refs : List Ref) : Except String PUnit :=
  if loops.any (·.increment ≠ 1) then .error "ValueError"
  else if refs.any fun r => (expand (factors r.dims) r.subs).any fun t => !checkTerm loops t then .error "ValueError"
  else match loops.getLast? with
    | none => .error "IndexError"
    | some l =>
      if refs.any fun r => r.subs.any fun p =>
          difference l.index l.increment p ≠ [] && difference l.index l.increment p ≠ [one] then .error "ValueError"
      else .ok ()

end Verif.Applicable
