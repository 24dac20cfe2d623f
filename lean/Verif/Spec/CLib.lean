/-!
The function `atoi` of the C library on a machine with 32 bit `int`, for text without leading white space: digits up to
the first other character are read with an optional minus sign, the result is reduced to 32 bits.
-/

namespace Verif.CLib

/-- Value of the leading digits. -/
def number : Nat → List Char → Nat
  | n, [] => n
  | n, c :: cs => if 48 ≤ c.toNat ∧ c.toNat ≤ 57 then number (10 * n + (c.toNat - 48)) cs else n

/-- Value with sign. -/
def signed (s : List Char) : Int :=
  match s with
  | '-' :: t => - (number 0 t : Int)
  | t => (number 0 t : Int)

/-- Two's complement with 32 bits. -/
def wrap (z : Int) : Int := (z + 2 ^ 31) % 2 ^ 32 - 2 ^ 31

/-- `atoi` -/
def atoi (s : List Char) : Int := wrap (signed s)

end Verif.CLib
