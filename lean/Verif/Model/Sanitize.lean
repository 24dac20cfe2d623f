import Verif.Spec.Sanitize

/-!
`sanitize_symbolname`: machinemodel.py lines 79-85. Nothing in kerncraft calls it.
-/

namespace Verif.Sanitize

/-- `[0-9]` -/
def digit (c : Char) : Bool := decide ('0' ≤ c) && decide (c ≤ '9')

/-- `[0-9a-zA-Z_]` -/
def part (c : Char) : Bool :=
  digit c || (decide ('a' ≤ c) && decide (c ≤ 'z')) || (decide ('A' ≤ c) && decide (c ≤ 'Z')) || c == '_'

/-- The alternatives of the pattern in their order at one place: a digit at the beginning, which `^` without flags matches only there, or a
character outside of the set. -/
def matches? (first : Bool) (c : Char) : Bool := (first && digit c) || !part c

/-- Line 85: `re.subn`, which replaces every match; the matches have one character each. -/
def subn : Bool → List Char → List Char
  | _, [] => []
  | first, c :: cs => (if matches? first c then '_' else c) :: subn false cs

/-- `sanitize_symbolname` -/
def sanitize (name : List Char) : List Char := subn true name

end Verif.Sanitize
