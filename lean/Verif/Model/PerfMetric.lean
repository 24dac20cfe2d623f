import Mathlib.Data.List.Basic
import Mathlib.Data.List.Infix

/-!
Model of the text handling in `MachineModel.parse_perfmetric` (`kerncraft/machinemodel.py:587-610`): finding performance
counters in a metric and replacing them by names that sympy can read. The parsing of the resulting text by sympy (line 600)
is not modelled.
-/

namespace Verif.PerfMetric

/-- `[A-Z0-9_]` -/
def isName (c : Char) : Bool := c.isUpper || c.isDigit || c == '_'

/-- `[A-Z0-9\[\]|\-]` -/
def isReg (c : Char) : Bool := c.isUpper || c.isDigit || c == '[' || c == ']' || c == '|' || c == '-'

/-- `[A-Za-z0-9\-_=]` -/
def isParam (c : Char) : Bool := c.isUpper || c.isLower || c.isDigit || c == '-' || c == '_' || c == '='

/-- `[A-Za-z0-9\-_=]*(?::[A-Za-z0-9\-_=]+)*` -/
def inParam : List Char → List Char
  | ':' :: c :: r => if isParam c then ':' :: c :: inParam r else []
  | c :: r => if isParam c then c :: inParam r else []
  | [] => []

/-- `(?::[A-Za-z0-9\-_=]+)*` -/
def params : List Char → List Char
  | ':' :: c :: r => if isParam c then ':' :: c :: inParam r else []
  | _ => []

/-- Line 591: the counter at the beginning of a text. No character class contains `:`, or is followed by characters of its
own, so that there is no backtracking. -/
def matchAt (s : List Char) : Option (List Char) :=
  match s.takeWhile isName, s.dropWhile isName with
  | [], _ => none
  | a, ':' :: r => match r.takeWhile isReg with
    | [] => none
    | b => some (a ++ ':' :: b ++ params (r.dropWhile isReg))
  | _, _ => none

/-- Line 591: `re.findall`, leftmost and without overlap; `skip` characters belong to the last match. -/
def findAll : Nat → List Char → List (List Char)
  | _, [] => []
  | k + 1, _ :: cs => findAll k cs
  | 0, c :: cs => match matchAt (c :: cs) with
    | some m => m :: findAll (m.length - 1) cs
    | none => findAll 0 cs

/-- Line 595: the characters that are replaced by `_`. -/
def clean (c : Char) : Char := if c ∈ ['[', ']', '-', '|', '=', ':'] then '_' else c

/-- Line 595: name for sympy. -/
def varName (pc : List Char) : List Char := ['S', 'Y', 'M'] ++ pc.map clean

/-- Assignment in a dictionary. -/
def insert (d : List (List Char × List Char)) (k v : List Char) : List (List Char × List Char) :=
  if (d.lookup k).isSome then d.map fun x => if x.1 = k then (k, v) else x else d ++ [(k, v)]

/-- Lines 595-596: `temp_pc_names`. -/
def names (pcs : List (List Char)) : List (List Char × List Char) := pcs.foldl (fun d pc => insert d (varName pc) pc) []

/-- `str.replace`, from the left and without overlap. -/
def replace (old new : List Char) : Nat → List Char → List Char
  | _, [] => []
  | k + 1, _ :: cs => replace old new k cs
  | 0, c :: cs => if old.isPrefixOf (c :: cs) then new ++ replace old new (old.length - 1) cs
      else c :: replace old new 0 cs

/-- Lines 597-598: `temp_metric`. -/
def temporary (metric : List Char) : List Char :=
  (names (findAll 0 metric)).foldl (fun t x => replace x.2 x.1 0 t) metric

end Verif.PerfMetric
