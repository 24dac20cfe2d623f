import Mathlib.Data.Nat.Digits.Defs

/-!
Python text primitives used by several modules. Text is a list of characters after newline translation (text mode turns
`\r\n` and `\r` into `\n`). White space and digits are the ASCII ones.
-/

namespace Verif.Text

/-- ASCII white space as in `str.split()` and `str.strip()`. -/
def isSpace (c : Char) : Bool :=
  c = ' ' || c = '\t' || c = '\n' || c = '\r' || c = '\x0b' || c = '\x0c' || c = '\x1c' || c = '\x1d' ||
    c = '\x1e' || c = '\x1f'

/-- `str.split('\n')`. -/
def splitNl : List Char → List (List Char)
  | [] => [[]]
  | c :: cs =>
    if c = '\n' then [] :: splitNl cs
    else match splitNl cs with
      | l :: ls => (c :: l) :: ls
      | [] => [[c]]

/-- `'\n'.join` -/
def joinNl : List (List Char) → List Char
  | [] => []
  | [l] => l
  | l :: ls => l ++ '\n' :: joinNl ls

/-- `str.split()` with the word read so far. -/
def wordsAux : List Char → List Char → List (List Char)
  | cur, [] => if cur = [] then [] else [cur]
  | cur, c :: cs =>
    if isSpace c then (if cur = [] then wordsAux [] cs else cur :: wordsAux [] cs)
    else wordsAux (cur ++ [c]) cs

/-- `str.split()` -/
def words (s : List Char) : List (List Char) := wordsAux [] s

/-- `str.strip()` -/
def strip (s : List Char) : List Char :=
  ((s.dropWhile isSpace).reverse.dropWhile isSpace).reverse

/-- The digit character of a number below ten. -/
def digitChar (d : Nat) : Char := Char.ofNat (48 + d)

/-- `str` of a natural number. -/
def showNat (n : Nat) : List Char :=
  if n = 0 then ['0'] else (Nat.digits 10 n).reverse.map digitChar

/-- `str` of an integer. -/
def showInt (z : Int) : List Char :=
  if z < 0 then '-' :: showNat z.natAbs else showNat z.natAbs

/-- ASCII digit. -/
def isDigit (c : Char) : Bool := decide (48 ≤ c.toNat) && decide (c.toNat ≤ 57)

/-- Digits with single underscores between them, as `int` reads them. The flag tells whether the character before was
a digit. -/
def parseDigits : Nat → Bool → List Char → Option Nat
  | acc, b, [] => if b then some acc else none
  | acc, b, c :: cs =>
    if isDigit c then parseDigits (10 * acc + (c.toNat - 48)) true cs
    else if c = '_' ∧ b = true then parseDigits acc false cs else none

/-- `int(s)` of a string without white space; `none` is a ValueError. -/
def parseInt (s : List Char) : Option Int :=
  match s with
  | '-' :: cs => (parseDigits 0 false cs).map fun n : Nat => -(n : Int)
  | '+' :: cs => (parseDigits 0 false cs).map fun n : Nat => (n : Int)
  | cs => (parseDigits 0 false cs).map fun n : Nat => (n : Int)

end Verif.Text
