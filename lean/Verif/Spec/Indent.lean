/-!
Indented text and tables: what the lines of a printed table are, and where its columns are.
-/

namespace Verif.Indent

/-- A text of complete lines. -/
def text (ls : List (List Char)) : List Char := ls.flatMap (· ++ ['\n'])

/-- A later prefix of one character is repeated `n` times. -/
def repeated (n : Nat) : List Char → List Char
  | [c] => List.replicate n c
  | later => later

/-- The first line gets the prefix, all others the later prefix; a later prefix of one character is repeated to the length of the prefix. -/
def indented (pre later : List Char) : List (List Char) → List (List Char)
  | [] => []
  | l :: ls => (pre ++ l) :: ls.map (repeated pre.length later ++ ·)

/-- `v` stands in the line such that it ends at column `n`. -/
def EndsAt (line : List Char) (n : Nat) (v : List Char) : Prop := ∃ a b, line = a ++ v ++ b ∧ (a ++ v).length = n

/-- `v` stands in the line such that it begins behind column `n`. -/
def BeginsAt (line : List Char) (n : Nat) (v : List Char) : Prop := ∃ a b, line = a ++ v ++ b ∧ a.length = n

/-- The first bar of the line has `n` characters before it. -/
def BarAt (n : Nat) (line : List Char) : Prop := ∃ a b, line = a ++ '|' :: b ∧ '|' ∉ a ∧ a.length = n

end Verif.Indent
