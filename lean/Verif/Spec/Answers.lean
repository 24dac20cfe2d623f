import Verif.Model.Text

/-!
Answers of the user to questions for numbers.
-/

namespace Verif.Answers

open Verif.Text

/-- The answer is this number, perhaps with white space around it. -/
def Number (n : Int) (a : List Char) : Prop :=
  ∃ p q, a = p ++ showInt n ++ q ∧ (∀ c ∈ p, isSpace c = true) ∧ ∀ c ∈ q, isSpace c = true

/-- The answer is empty, or has a character that is in no number. -/
def NoNumber (a : List Char) : Prop := a = [] ∨ ∃ c ∈ a, isSpace c = false ∧ isDigit c = false ∧ c ∉ ['+', '-', '_']

end Verif.Answers
