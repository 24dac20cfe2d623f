import Mathlib.Data.List.Sort

/-!
Model of `sympy_expr_abs_distance_key` (`kerncraft/cacheprediction.py:36-83`): the key by which symbolic reuse distances
are sorted and compared. Expressions are expanded polynomials with integer coefficients: sympy's expansion itself is not
modelled, and the coefficients, which `as_terms` converts to floats, are exact.
-/

namespace Verif.DistKey

/-- A term: coefficient and exponents of the symbols. -/
abbrev Mono := Int × List Nat

/-- An expanded expression. -/
abbrev Poly := List Mono

/-- Distances: `oo` or a polynomial. -/
inductive Distance where
  | inf
  | poly (p : Poly)
deriving DecidableEq, Repr

/-- `e.is_Integer` -/
def isInteger : Poly → Option Int
  | [] => some 0
  | [(c, es)] => if es.sum = 0 then some c else none
  | _ => none

/-- Collect a term of one symbol. -/
def addTerm (e : Nat) (c : Int) : List (Nat × Int) → List (Nat × Int)
  | [] => [(e, c)]
  | (f, d) :: acc => if e = f then (f, d + c) :: acc else (f, d) :: addTerm e c acc

/-- Lines 53-60: all symbols are replaced by one, the result is expanded. Exponents and coefficients, as in `as_terms`. -/
def collapse (p : Poly) : List (Nat × Int) :=
  (p.foldl (fun acc m => addTerm m.2.sum m.1 acc) []).filter (·.2 ≠ 0)

/-- Line 74: the order of `key.sort(reverse=True)`. -/
def termGe (a b : Nat × Int) : Prop := b.1 < a.1 ∨ (b.1 = a.1 ∧ b.2 ≤ a.2)

instance : DecidableRel termGe := fun a b => by unfold termGe; infer_instance

/-- Lines 76-82: missing exponents are inserted. -/
def fill : List Nat → Nat → List (Nat × Int) → List (Nat × Int)
  | [], _, key => key
  | e :: es, i, key =>
    if (key[i]?).any (·.1 == e) then fill es (i + 1) key
    else fill es (i + 1) (key.take i ++ (e, 0) :: key.drop i)

/-- Keys; `none` is `((oo, oo),)`. -/
abbrev Key := Option (List (Nat × Int))

/-- Lines 36-83; the result is `none` if an assertion fails or the key cannot be built. -/
def distKey : Distance → Option Key
  | .inf => some none
  | .poly p =>
    match isInteger p with
    | some c => some (some [(0, (c.natAbs : Int))])
    | none =>
      let terms := collapse p
      -- line 64: the only generator is the symbol
      if terms.any (·.1 ≠ 0) then
        match terms.insertionSort termGe with
        | [] => none
        | t :: ts => some (some (fill (List.range (t.1 + 1)).reverse 0 (t :: ts)))
      else none

/-- `a < b` of tuples of pairs. -/
def tuplesLt : List (Nat × Int) → List (Nat × Int) → Bool
  | [], [] => false
  | [], _ :: _ => true
  | _ :: _, [] => false
  | (e, c) :: as, (f, d) :: bs =>
    if e < f then true else if f < e then false
    else if c < d then true else if d < c then false
    else tuplesLt as bs

/-- `a < b` of keys: `oo` exceeds every number. -/
def keyLt : Key → Key → Bool
  | some a, some b => tuplesLt a b
  | some _, none => true
  | none, _ => false

end Verif.DistKey
