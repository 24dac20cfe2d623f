/-!
What a user may ask a stand-alone benchmark to measure.
-/

namespace Verif.Regions

/-- The whole program, all marked regions, or some regions by name. -/
inductive Request where
  | program
  | all
  | named (names : List (List Char))

/-- A region is to be measured. The nameless region is the whole program; it is only measured if nothing else is there to be measured. -/
def Request.Wanted (found : List (List Char)) : Request → List Char → Prop
  | .program, r => r = []
  | .all, r => r ∈ found ∧ (r ≠ [] ∨ ∀ x ∈ found, x = [])
  | .named ns, r => r ∈ ns ∧ (r ≠ [] ∨ ∀ x ∈ ns, x = [])

/-- Names with commas between them. -/
def commas : List (List Char) → List Char
  | [] => []
  | [n] => n
  | n :: m :: ns => n ++ ',' :: commas (m :: ns)

/-- What is known about a region: its own value or, without one, that given for no region. -/
def given {α : Type} (d : List (List Char × α)) (r : List Char) : Option α := (d.lookup r).or (d.lookup [])

end Verif.Regions
