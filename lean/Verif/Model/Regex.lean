import Verif.Model.Text

/-!
Patterns of Python's `re`: a pattern maps a text to all its matches at the beginning, in the order in which backtracking finds
them, with the rest of the text. `re.match` takes the first one. Digits, word characters and white space are the ASCII ones.
-/

namespace Verif.Regex

open Verif.Text

/-- A pattern with a result. -/
abbrev Pat (α : Type) := List Char → List (α × List Char)

/-- The empty pattern. -/
def ret {α : Type} (x : α) : Pat α := fun s => [(x, s)]

/-- A pattern and then another one. -/
def bind {α β : Type} (a : Pat α) (f : α → Pat β) : Pat β := fun s => (a s).flatMap fun x => f x.1 x.2

/-- One character of a class. -/
def chr (p : Char → Bool) : Pat (List Char)
  | [] => []
  | c :: cs => if p c then [([c], cs)] else []

/-- Two patterns, with the text of both. -/
def cat (a b : Pat (List Char)) : Pat (List Char) := bind a fun x => bind b fun y => ret (x ++ y)

/-- `p*` for a class of characters. -/
def star (p : Char → Bool) : Pat (List Char)
  | [] => [([], [])]
  | c :: cs => if p c then (star p cs).map (fun x => (c :: x.1, x.2)) ++ [([], c :: cs)] else [([], c :: cs)]

/-- `p+` -/
def plus (p : Char → Bool) : Pat (List Char) := cat (chr p) (star p)

/-- `(...)*` for a pattern that is never empty; the number limits the rounds. -/
def many (a : Pat (List Char)) : Nat → Pat (List Char)
  | 0 => fun s => [([], s)]
  | n + 1 => fun s => (a s).flatMap (fun x => (many a n x.2).map fun y => (x.1 ++ y.1, y.2)) ++ [([], s)]

/-- `(...)?` with the result as an option. -/
def group {α : Type} (a : Pat α) : Pat (Option α) := fun s => (a s).map (fun x => (some x.1, x.2)) ++ [(none, s)]

/-- `(...)?` with an empty text if it is not there. -/
def opt (a : Pat (List Char)) : Pat (List Char) := fun s => a s ++ [([], s)]

/-- `a|b` -/
def alt {α : Type} (a b : Pat α) : Pat α := fun s => a s ++ b s

/-- A fixed text. -/
def lit (t : List Char) : Pat (List Char) := fun s => if t.isPrefixOf s then [(t, s.drop t.length)] else []

/-- `$`: the end, also before a last line break. -/
def eos : Pat (List Char) := fun s => if s = [] ∨ s = ['\n'] then [([], s)] else []

/-- The first match. -/
def first {α : Type} (a : Pat α) (s : List Char) : Option α := (a s).head?.map (·.1)

/-- `\w` -/
def isWord (c : Char) : Bool := c.isLower || c.isUpper || isDigit c || c == '_'

end Verif.Regex
