import Mathlib.Data.Rat.Cast.Order
import Mathlib.Algebra.Order.Ring.Rat

/-!
Lines of a table of data transfers: what they say, and where their bars are.
-/

namespace Verif.DataTable

/-- The places of the bars in a line that begins at column `k`. -/
def bars : Nat → List Char → List Nat
  | _, [] => []
  | k, c :: cs => if c = '|' then k :: bars (k + 1) cs else bars (k + 1) cs

/-- Spaces only. -/
def Blank (s : List Char) : Prop := ∀ c ∈ s, c = ' '

/-- `s` is `n` in decimal digits. -/
def Numeral (s : List Char) (n : Nat) : Prop :=
  s ≠ [] ∧ (∀ c ∈ s, 48 ≤ c.toNat ∧ c.toNat ≤ 57) ∧ s.foldl (fun a c => 10 * a + (c.toNat - 48)) 0 = n

/-- A whole number nearest to `x`. -/
def Nearest (x : ℚ) (n : Nat) : Prop := |x - n| ≤ 1 / 2

/-- The line is for the two levels and has `n` and `m` bytes. -/
def Says (line a b : List Char) (n m : Nat) : Prop :=
  ∃ p q r s t, Blank p ∧ Blank q ∧ Blank r ∧ Numeral s n ∧ Numeral t m ∧
    line = p ++ a ++ ['-'] ++ b ++ [' ', '|', ' '] ++ q ++ s ++ [' ', 'B', '/', 'C', 'L', ' ', '|', ' '] ++ r ++ t ++
      [' ', 'B', '/', 'C', 'L', ' ', '|']

/-- The first two lines of the table. -/
def title : List Char := ['D', 'a', 't', 'a', ' ', 'T', 'r', 'a', 'n', 's', 'f', 'e', 'r', 's', ':']

def columns : List Char :=
  ['L', 'e', 'v', 'e', 'l', ' ', ' ', ' ', '|', ' ', 'L', 'o', 'a', 'd', 's', ' ', ' ', ' ', ' ', '|', ' ', 'S', 't', 'o',
    'r', 'e', ' ', ' ', ' ', ' ', '|']

/-- A text of complete lines. -/
def text (ls : List (List Char)) : List Char := ls.flatMap (· ++ ['\n'])

end Verif.DataTable
