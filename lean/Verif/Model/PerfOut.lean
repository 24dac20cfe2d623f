import Verif.Model.Pheno

/-!
Reading of the output of `likwid-perfctr` (`models/benchmark.py:233-262`).
-/

namespace Verif.PerfOut

open Verif.Text Verif.Analyzer

/-- Values of `float`. -/
inductive Num where
  | fin (x : ℚ)
  | inf (negative : Bool)
  | nan
deriving DecidableEq

/-- Without the sign of an exponent. -/
def unsign : List Char → List Char
  | '+' :: d => d
  | '-' :: d => d
  | d => d

/-- `[eE][-+]?[0-9]+` or nothing. -/
def isExp : List Char → Bool
  | [] => true
  | c :: r => (c == 'e' || c == 'E') && !(unsign r).isEmpty && (unsign r).all isDigit

/-- Digits with a point or without one, and perhaps an exponent. -/
def isDec (s : List Char) : Bool :=
  match s.dropWhile isDigit with
  | '.' :: r => (!(s.takeWhile isDigit).isEmpty || !(r.takeWhile isDigit).isEmpty) && isExp (r.dropWhile isDigit)
  | r => !(s.takeWhile isDigit).isEmpty && isExp r

/-- `float` of a text without blanks and sign. -/
def floatAbs (s : List Char) : Option Num :=
  if s.map Char.toLower = "nan".toList then some .nan
  else if s.map Char.toLower = "inf".toList ∨ s.map Char.toLower = "infinity".toList then some (.inf false)
  else if isDec s then some (.fin (Pheno.floatOf s))
  else none

def Num.neg : Num → Num
  | .fin x => .fin (-x)
  | .inf b => .inf !b
  | .nan => .nan

/-- `float`; underscores between digits are left out. -/
def pyFloat (s : List Char) : Option Num :=
  match strip s with
  | '-' :: t => (floatAbs t).map Num.neg
  | '+' :: t => floatAbs t
  | t => floatAbs t

/-- What is stored for a key. -/
inductive Entry where
  | num (x : Num)
  | counters (d : List (List Char × Int))
  | text (s : List Char)
deriving DecidableEq

/-- Lines 249-252: the value of a counter. -/
def countOf (t : List Char) : Option Int :=
  if t = ['-'] ∨ t = "nan".toList then some 0 else parseInt (strip t)

/-- `[A-Z0-9]` -/
def isCap (c : Char) : Bool := c.isUpper || isDigit c

/-- `[0-9a-fA-Fx]` -/
def isHex (c : Char) : Bool := isDigit c || (decide ('a' ≤ c) && decide (c ≤ 'f')) || (decide ('A' ≤ c) && decide (c ≤ 'F')) || c == 'x'

/-- `[A-Z0-9]+=[0-9a-fA-Fx]+` -/
def isParam (p : List Char) : Bool :=
  match splitOn '=' p with
  | [k, v] => !k.isEmpty && k.all isCap && !v.isEmpty && v.all isHex
  | _ => false

/-- Line 254: `[A-Z0-9]+(:[A-Z0-9]+=[0-9a-fA-Fx]+)*` for the whole text; the parts cannot contain the separators. -/
def isCounter (s : List Char) : Bool :=
  match splitOn ':' s with
  | r :: ps => !r.isEmpty && r.all isCap && ps.all isParam
  | [] => false

/-- Line 253: `[A-Z0-9_]+` -/
def isEvent (s : List Char) : Bool := !s.isEmpty && s.all fun c => isCap c || c == '_'

/-- Lines 259-261 -/
def stepInfo (d : List (List Char × Entry)) (k v : List Char) (rest : List (List Char)) : List (List Char × Entry) :=
  if k.getLast? = some ':' ∧ rest = [[]] then set d k (.text v) else d

/-- Lines 235-261: one line. -/
def step (d : List (List Char × Entry)) (line : List Char) : Except String (List (List Char × Entry)) :=
  match splitOn ',' line with
  | k :: v :: rest =>
    match pyFloat v with
    | some x => .ok (set d k (.num x))
    | none => match rest.head?.bind countOf with
      | some n =>
        if isEvent k && isCounter v then
          match d.lookup k with
          | none => .ok (set d k (.counters [(v, n)]))
          | some (.counters c) => .ok (set d k (.counters (set c v n)))
          | some _ => .error "TypeError"
        else .ok (stepInfo d k v rest)
      | none => .ok (stepInfo d k v rest)
  | _ => .ok d

/-- Lines 233-262, without the entry `raw output`. -/
def read (out : List Char) : Except String (List (List Char × Entry)) := (splitNl out).foldlM step []

end Verif.PerfOut
