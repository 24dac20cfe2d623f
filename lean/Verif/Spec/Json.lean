import Mathlib.Data.Rat.Defs

/-!
Trees of JSON, without `null`. An object is a list of names and values; readers of JSON take the last value of a name.
-/

namespace Verif.Json

inductive Json where
  | str (s : List Char)
  | int (z : Int)
  | float (x : ℚ)
  | bool (b : Bool)
  | arr (l : List Json)
  | obj (l : List (List Char × Json))

/-- What a reader finds under a name. -/
def find (name : List Char) (l : List (List Char × Json)) : Option Json := (l.reverse.find? fun e => e.1 = name).map (·.2)

end Verif.Json
