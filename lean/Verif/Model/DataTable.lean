import Verif.Model.Text
import Verif.Model.Cli

/-!
The table of data transfers of the ECM report (`models/ecm.py:198-207`). Numbers are rational and not negative; the nan for
the first level (`cacheprediction.py:480-498`) is not used by the table and stands for any number here.
-/

namespace Verif.DataTable
open Verif.Text

/-- `{:>n}` -/
def padLeft (n : Nat) (s : List Char) : List Char := List.replicate (n - s.length) ' ' ++ s

/-- `{:>3.0f}`: rounded half to even, no decimals. -/
def bytes (x : ℚ) : List Char := padLeft 3 (showInt (Cli.roundHalfEven x))

/-- Lines 203-206: a line of the table. -/
def row (a b : List Char) (x y : ℚ) : List Char :=
  padLeft 7 (a ++ ['-'] ++ b) ++ [' ', '|', ' '] ++ bytes x ++ [' ', 'B', '/', 'C', 'L', ' ', '|', ' '] ++ bytes y ++
    [' ', 'B', '/', 'C', 'L', ' ', '|', '\n']

/-- Lines 202-206: the loop from the second level on; `prev` is the level before. -/
def rows (cl : ℚ) (loads stores : List ℚ) (prev : List Char) (i : Nat) : List (List Char) → Except String (List Char)
  | [] => .ok []
  | l :: ls =>
    match loads[i]?, stores[i]? with
    | some x, some y =>
      match rows cl loads stores l (i + 1) ls with
      | .ok r => .ok (row prev l (x * cl) (y * cl) ++ r)
      | .error e => .error e
    | _, _ => .error "IndexError"

/-- Line 200 -/
def heading : List Char :=
  ['D', 'a', 't', 'a', ' ', 'T', 'r', 'a', 'n', 's', 'f', 'e', 'r', 's', ':', '\n'] ++
  ['L', 'e', 'v', 'e', 'l', ' ', ' ', ' ', '|', ' ', 'L', 'o', 'a', 'd', 's', ' ', ' ', ' ', ' ', '|', ' ', 'S', 't', 'o',
    'r', 'e', ' ', ' ', ' ', ' ', '|', '\n']

/-- Lines 198-207 `ECMData.report_data_transfers`. -/
def table (cl : ℚ) (loads stores : List ℚ) : List (List Char) → Except String (List Char)
  | [] => .ok heading
  | l :: ls =>
    match rows cl loads stores l 1 ls with
    | .ok r => .ok (heading ++ r)
    | .error e => .error e

end Verif.DataTable
