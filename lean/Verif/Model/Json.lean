import Verif.Spec.Json
import Verif.Model.Text

/-!
Model of the JSON output of results (`kerncraft/kerncraft.py:279-301`, `418-423`): `jsonify_obj`, the text of identifiers (Python's `str` of
tuples) and the names that `json.dump` gives to keys. Floats are rationals. Characters beyond ASCII are printable here, while Python writes some of
them as escapes.
-/

namespace Verif.Json

open Verif.Text

/-- Values in identifiers of results: `identifier_from_arguments` (lines 258-277) turns lists into tuples and files into their names. -/
inductive Key where
  | str (s : List Char)
  | int (z : Int)
  | bool (b : Bool)
  | none
  | tup (l : List Key)

/-- Keys of dictionaries. Other objects are given by their text. -/
inductive DKey where
  | str (s : List Char)
  | int (z : Int)
  | tup (l : List Key)
  | other (text : List Char)

/-- Python values in results. Other objects are given by their text. -/
inductive Val where
  | str (s : List Char)
  | int (z : Int)
  | float (x : ℚ)
  | bool (b : Bool)
  | none
  | other (text : List Char)
  | list (l : List Val)
  | tuple (l : List Val)
  | dict (l : List (DKey × Val))

/-! ### Python's `repr` -/

/-- The quote that Python takes for a text. -/
def quote (s : List Char) : Char := if '\'' ∈ s ∧ '"' ∉ s then '"' else '\''

def hexDigit (n : Nat) : Char := Char.ofNat (if n < 10 then 48 + n else 87 + n)

/-- A character within quotes `q`. -/
def esc (q c : Char) : List Char :=
  if c = q ∨ c = '\\' then ['\\', c]
  else if c = '\n' then ['\\', 'n']
  else if c = '\r' then ['\\', 'r']
  else if c = '\t' then ['\\', 't']
  else if c.toNat < 32 ∨ c.toNat = 127 then ['\\', 'x', hexDigit (c.toNat / 16), hexDigit (c.toNat % 16)]
  else [c]

def reprStr (s : List Char) : List Char := quote s :: (s.flatMap (esc (quote s)) ++ [quote s])

mutual
/-- `repr` of values in identifiers. -/
def repr : Key → List Char
  | .str s => reprStr s
  | .int z => showInt z
  | .bool true => "True".toList
  | .bool false => "False".toList
  | .none => "None".toList
  | .tup [] => "()".toList
  | .tup [a] => '(' :: (repr a ++ ",)".toList)
  | .tup (a :: b :: l) => '(' :: (repr a ++ reprTail (b :: l))

/-- The other items of a tuple. -/
def reprTail : List Key → List Char
  | [] => [')']
  | a :: l => ',' :: ' ' :: (repr a ++ reprTail l)
end

/-! ### `jsonify_obj` -/

/-- Keys of the new dictionary (line 297). -/
inductive JKey where
  | str (s : List Char)
  | int (z : Int)
deriving DecidableEq

/-- Line 297 -/
def jkey : DKey → JKey
  | .str s => .str s
  | .int z => .int z
  | .tup l => .str (repr (.tup l))
  | .other text => .str text

/-- `new_dict[k] = v`: the value of a key that exists is replaced in its place. -/
def assign {α β : Type} [DecidableEq α] (k : α) (v : β) : List (α × β) → List (α × β)
  | [] => [(k, v)]
  | e :: l => if e.1 = k then (k, v) :: l else e :: assign k v l

/-- Names in JSON: numbers are written as texts. -/
def name : JKey → List Char
  | .str s => s
  | .int z => showInt z

mutual
/-- Lines 279-301 followed by `json.dump` (line 422): the tree of JSON for a value. Tuples are written as lists. -/
def dump : Val → Json
  | .str s => .str s
  | .int z => .int z
  | .float x => .float x
  | .bool b => .bool b
  | .none => .str "None".toList
  | .other text => .str text
  | .list l => .arr (dumpList l)
  | .tuple l => .arr (dumpList l)
  | .dict l => .obj ((dumpDict l []).map fun e => (name e.1, e.2))

def dumpList : List Val → List Json
  | [] => []
  | v :: l => dump v :: dumpList l

/-- The loop of lines 295-298. -/
def dumpDict : List (DKey × Val) → List (JKey × Json) → List (JKey × Json)
  | [], acc => acc
  | (k, v) :: l, acc => dumpDict l (assign (jkey k) (dump v) acc)
end

mutual
/-- `json.load`: the value that a tree stands for. -/
def load : Json → Val
  | .str s => .str s
  | .int z => .int z
  | .float x => .float x
  | .bool b => .bool b
  | .arr l => .list (loadList l)
  | .obj l => .dict ((loadObj l []).map fun e => (.str e.1, e.2))

def loadList : List Json → List Val
  | [] => []
  | j :: l => load j :: loadList l

def loadObj : List (List Char × Json) → List (List Char × Val) → List (List Char × Val)
  | [], acc => acc
  | (n, j) :: l, acc => loadObj l (assign n (load j) acc)
end

end Verif.Json
