import Mathlib.Data.List.Basic

/-!
Performance counters in metrics, written down without regular expressions: for C92.
-/

namespace Verif.Counters

/-- Upper case letter, digit or underscore. -/
def Name (c : Char) : Prop := c.isUpper = true ∨ c.isDigit = true ∨ c = '_'

/-- Upper case letter, digit, bracket, bar or minus. -/
def Register (c : Char) : Prop := c.isUpper = true ∨ c.isDigit = true ∨ c ∈ ['[', ']', '|', '-']

/-- Letter, digit, minus, underscore or equals sign. -/
def Parameter (c : Char) : Prop := c.isAlpha = true ∨ c.isDigit = true ∨ c ∈ ['-', '_', '=']

/-- Non-empty text over a class of characters. -/
def Word (p : Char → Prop) (w : List Char) : Prop := w ≠ [] ∧ ∀ c ∈ w, p c

/-- Event, register and any number of parameters, separated by colons. -/
def IsCounter (w : List Char) : Prop := ∃ (event register : List Char) (parameters : List (List Char)), Word Name event ∧ Word Register register ∧
  (∀ q ∈ parameters, Word Parameter q) ∧ w = event ++ ':' :: register ++ parameters.flatMap (':' :: ·)

/-- Characters that end counters, e.g. blanks, parentheses, `+`, `*` and `/`. -/
def Separator (c : Char) : Prop := c.isAlpha = false ∧ c.isDigit = false ∧ c ∉ ['_', '[', ']', '|', '-', '=', ':']

/-- Part of a metric between separators: a counter, or text that does not refer to counters. -/
inductive Piece
  | plain (w : List Char)
  | counter (w : List Char)

def Piece.text : Piece → List Char
  | .plain w => w
  | .counter w => w

def Piece.Ok : Piece → Prop
  | .plain w => ':' ∉ w
  | .counter w => IsCounter w

/-- The text of pieces and the separators before them, with `f` applied to counters. -/
def render (f : List Char → List Char) (p : Piece) (rest : List (Char × Piece)) : List Char :=
  let one : Piece → List Char
    | .plain w => w
    | .counter w => f w
  one p ++ rest.flatMap fun q => q.1 :: one q.2

def Piece.counter? : Piece → Option (List Char)
  | .plain _ => none
  | .counter w => some w

/-- The counters of a metric from left to right. -/
def counters (p : Piece) (rest : List (Char × Piece)) : List (List Char) :=
  (p :: rest.map (·.2)).filterMap Piece.counter?

end Verif.Counters
