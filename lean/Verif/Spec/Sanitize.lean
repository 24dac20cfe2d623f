/-!
Names of Python variables, for C165.
-/

namespace Verif.Sanitize

/-- Letters of ASCII and the underscore. -/
def IsStart (c : Char) : Prop := ('a' ≤ c ∧ c ≤ 'z') ∨ ('A' ≤ c ∧ c ≤ 'Z') ∨ c = '_'

/-- These and the digits of ASCII. -/
def IsPart (c : Char) : Prop := IsStart c ∨ ('0' ≤ c ∧ c ≤ '9')

/-- A name: not empty, the first character is no digit. Keywords are names as well. -/
def IsName (s : List Char) : Prop := ∃ c cs, s = c :: cs ∧ IsStart c ∧ ∀ x ∈ cs, IsPart x

end Verif.Sanitize
