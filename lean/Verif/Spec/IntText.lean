import Verif.Spec.Numerals

/-!
Texts of integers.
-/

namespace Verif.IntText

open Verif.Numerals (value)

/-- A text of digits, in which a single underscore may stand between two digits, and its digits. -/
inductive Digits : List Char → List Char → Prop where
  | last {c} : c ∈ Numerals.digits → Digits [c] [c]
  | digit {c t d} : c ∈ Numerals.digits → Digits t d → Digits (c :: t) (c :: d)
  | underscore {c t d} : c ∈ Numerals.digits → Digits t d → Digits (c :: '_' :: t) (c :: d)

/-- Blanks. -/
def blanks : List Char := [' ', '\t', '\n', '\r', '\x0b', '\x0c']

/-- A text means an integer: blanks around a sign and digits. -/
def Means (s : String) (n : Int) : Prop :=
  ∃ pre body post t d, s.toList = pre ++ body ++ post ∧ (∀ c ∈ pre, c ∈ blanks) ∧ (∀ c ∈ post, c ∈ blanks) ∧ Digits t d ∧
    (body = t ∧ n = value d ∨ body = '+' :: t ∧ n = value d ∨ body = '-' :: t ∧ n = -(value d : Int))

end Verif.IntText
