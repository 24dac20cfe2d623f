import Mathlib.Data.Multiset.Filter
import Mathlib.Algebra.BigOperators.Group.Multiset.Basic
import Mathlib.Data.Int.Order.Basic

/-!
Model of the delinearisation of array positions, `split_sympy_access_in_dim_offset` (`kerncraft/cacheprediction.py:125-181`),
and of the position it starts from (`access_to_sympy`, `kernel.py:358-375`). Extents are single terms, subscripts sums of terms with
integer coefficients; sympy's `expand`, `coeff` and structural comparison are modelled for such sums.
-/

namespace Verif.Split

/-- A term: coefficient and product of symbols (with repetition). -/
abbrev Term := Int × Multiset String

/-- A sum of terms. -/
abbrev Poly := List Term

/-- `1` -/
def one : Term := (1, 0)

/-- Product of two terms. -/
def mulT (a b : Term) : Term := (a.1 * b.1, a.2 + b.2)

/-- Add a term to a sum in which like terms are collected. -/
def addTerm (t : Term) : Poly → Poly
  | [] => if t.1 = 0 then [] else [t]
  | u :: p => if t.2 = u.2 then (if u.1 + t.1 = 0 then p else (u.1 + t.1, u.2) :: p) else u :: addTerm t p

/-- Collect like terms. -/
def collect (p : Poly) : Poly := p.foldl (fun acc t => addTerm t acc) []

/-- `kernel.py:371-372`: factor of each dimension, the product of the later extents; also lines 373-375 of
`cacheprediction.py`. -/
def factors : List Term → List Term
  | [] => []
  | _ :: ds => ds.foldl mulT one :: factors ds

/-- Line 161: `expr.expand()` of the sum of factors times subscripts. -/
def expand (fs : List Term) (subs : List Poly) : Poly :=
  collect ((fs.zip subs).flatMap fun x => x.2.map (mulT x.1))

/-- The number in sympy's `args_cnc` of a term: negative numbers are split. -/
def numArgs (c : Int) : List Int :=
  if c = 1 then [] else if c = -1 then [-1] else if c < 0 then [-1, -c] else [c]

/-- `term.coeff(factor)`; `none` is 0. The factors of the term (number, powers of symbols) must include all those of
`factor`; for the factor one, the number of the term must be one. -/
def coeff (t f : Term) : Option Term :=
  if f.1 = 0 then none
  else if t = f then some one
  else if f = one then (if t.1 = 1 then some t else none)
  else if numArgs f.1 ⊆ numArgs t.1 ∧ ∀ s ∈ f.2, f.2.count s = t.2.count s then
    some (((numArgs t.1).filter (· ∉ numArgs f.1)).prod, t.2.filter (· ∉ f.2))
  else none

/-- Lines 168-171: contribution of a term to a factor. -/
def contribution (t f : Term) : Option Term :=
  if t.2 = 0 ∧ f = one then some t else coeff t f

/-- Lines 167-174: a term is added to the coefficient of the first factor that it contains, or dropped. -/
def addTo (t : Term) : List Term → List Poly → List Poly
  | f :: fs, c :: cs => match contribution t f with
    | some u => addTerm u c :: cs
    | none => c :: addTo t fs cs
  | _, cs => cs

/-- Lines 165-174: all terms. -/
def coefficients (fs : List Term) (terms : Poly) : List Poly :=
  terms.foldl (fun cs t => addTo t fs cs) (fs.map fun _ => [])

/-- A sum as sympy holds it, up to order: collected terms, and products of a term with symbols and a sum of two or more
terms, which stay as they are (numbers are multiplied out). -/
structure Form where
  terms : Multiset Term
  products : Multiset (Term × Multiset Term)
deriving DecidableEq

/-- Is `f * p` kept as a product? -/
def kept (f : Term) (p : Poly) : Bool := decide (f.2 ≠ 0) && decide (2 ≤ p.length)

/-- The sum of products of factors and coefficients. -/
def form (fs : List Term) (ps : List Poly) : Form :=
  ⟨(collect (((fs.zip ps).filter fun x => !kept x.1 x.2).flatMap fun x => x.2.map (mulT x.1)) : Poly),
   (((fs.zip ps).filter fun x => kept x.1 x.2).map fun x => (x.1, (x.2 : Multiset Term)) : List (Term × Multiset Term))⟩

/-- Lines 125-181: split the position of the element with the given subscripts again; `none` is the ValueError. -/
def split (dims : List Term) (subs : List Poly) : Option (List Poly) :=
  let fs := factors dims
  let cs := coefficients fs (expand fs subs)
  if form fs cs = form fs subs then some cs else none

end Verif.Split
