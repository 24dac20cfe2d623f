/-!
Decimal numerals, independent of how any of the modelled functions reads them.
-/

namespace Verif.Numerals

/-- The digits in the order of their values. -/
def digits : List Char := ['0', '1', '2', '3', '4', '5', '6', '7', '8', '9']

/-- Value of a numeral: every digit counts with the power of ten of its place. -/
def value : List Char → Nat
  | [] => 0
  | c :: cs => digits.idxOf c * 10 ^ cs.length + value cs

end Verif.Numerals
