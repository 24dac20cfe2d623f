import Mathlib.Algebra.Order.Floor.Ring
import Mathlib.Data.Rat.Floor
import Mathlib.Data.List.Sort

/-!
Model of `kerncraft/kerncraft.py` (command line values, combinations of constants, identifiers, result storage)
and `kerncraft/picklemerge.py`.
-/

namespace Verif.Cli

deriving instance DecidableEq for Except

/-! ### Ranges (`kerncraft.py:29-57`, `88-128`) -/

/-- Python's `round` to integer: half to even. -/
def roundHalfEven (q : ℚ) : Int :=
  let f := ⌊q⌋
  if q - f < 1 / 2 then f
  else if 1 / 2 < q - f then f + 1
  else if f % 2 = 0 then f else f + 1

/-- Lines 29-57 `space` with `endpoint=True, log=False`; rationals for floats. -/
def space (start stop num : Int) : Except String (List Int) :=
  if num < 2 then .error "AssertionError"
  else
    let step : ℚ := ((stop - start : Int) : ℚ) / ((num - 1 : Int) : ℚ)
    .ok ((List.range num.toNat).map fun i : Nat => roundHalfEven (start + i * step))

/-- A parsed range description. -/
structure RangeSpec where
  start : Nat
  stop : Option Nat
  num : Option Nat
  log : Bool
  base : Option Nat
deriving DecidableEq, Repr

/-- `\d` (ASCII only). -/
def isDigit (c : Char) : Bool := '0' ≤ c && c ≤ '9'

/-- `int` of a digit string. -/
def decimal (ds : List Char) : Nat := ds.foldl (fun n c => 10 * n + (c.toNat - '0'.toNat)) 0

/-- `\d+` greedily: the number and the rest. -/
def takeNumber (s : List Char) : Option (Nat × List Char) :=
  let ds := s.takeWhile isDigit
  if ds = [] then none else some (decimal ds, s.dropWhile isDigit)

/-- Drop an optional colon (`:?` in the source). -/
def dropColon : List Char → List Char
  | ':' :: r => r
  | r => r

/-- `(:?(?P<log>log)(:?(?P<base>\d+))?)?` -/
def parseLog (s : List Char) : Bool × Option Nat :=
  match dropColon s with
  | 'l' :: 'o' :: 'g' :: r =>
    match takeNumber (dropColon r) with
    | some (b, _) => (true, some b)
    | none => (true, none)
  | _ => (false, none)

/-- Lines 105-107: `re.match` of the description; what follows the match is ignored. -/
def parseRange (s : List Char) : Option RangeSpec :=
  match takeNumber s with
  | none => none
  | some (a, '-' :: r) =>
    match takeNumber r with
    | none => some ⟨a, none, none, false, none⟩
    | some (b, ':' :: r') =>
      match takeNumber r' with
      | none => some ⟨a, some b, none, false, none⟩
      | some (n, r'') => some ⟨a, some b, some n, (parseLog r'').1, (parseLog r'').2⟩
    | some (b, _) => some ⟨a, some b, none, false, none⟩
  | some (a, _) => some ⟨a, none, none, false, none⟩

/-- Lines 108-121: the list of values; logarithmic spacing is not modelled (`NotModelled`). -/
def rangeValues (s : List Char) : Except String (List Int) :=
  match parseRange s with
  | none => .error "ArgumentError"
  | some r =>
    match r.stop, r.num with
    | none, _ => .ok [(r.start : Int)]
    | some b, none => .ok ((List.range (b + 1 - r.start)).map fun i : Nat => ((r.start + i : Nat) : Int))
    | some b, some n => if r.log then .error "NotModelled" else space r.start b n

/-! ### Combinations of constants (`kerncraft.py:344-376`) -/

/-- `-D` options: name and values. -/
abbrev Define := String × List Int

/-- Order of `args.define.sort()`: lists `[name, values]`, compared lexicographically. -/
def defineLe (a b : Define) : Bool := decide (a.1 < b.1) || (decide (a.1 = b.1) && decide (a.2 ≤ b.2))

/-- The insertion-ordered dictionary `define_dict`: name to list of values (the code keeps `[name, value]`). -/
abbrev DefineDict := List (String × List Int)

/-- Lines 360-369: one `-D` option. Line 368 compares an integer to `[name, value]` lists, which never are equal:
every value is appended. -/
def addDefine (required : List String) (dict : DefineDict) (d : Define) : DefineDict :=
  if d.1 ∉ required then dict
  else if dict.any (·.1 == d.1) then
    dict.map fun e => if e.1 = d.1 then (e.1, e.2 ++ d.2) else e
  else dict ++ [d]

/-- Line 355: `dict(args.define)['.']`: the last entry with that name. -/
def defaultValues (defs : List Define) : Option (List Int) :=
  (defs.reverse.find? (·.1 = ".")).map (·.2)

/-- Lines 349-369. `required` enumerates the set of required constants. -/
def defineDict (required : List String) (defs : List Define) : DefineDict :=
  let defs := defs.insertionSort (fun a b => defineLe a b)
  let prefill : DefineDict := match defaultValues defs with
    | some vs => required.map fun n => (n, vs)
    | none => []
  defs.foldl (addDefine required) prefill

/-- `itertools.product` over the values, each combination as list of (name, value). -/
def product : DefineDict → List (List (String × Int))
  | [] => [[]]
  | (n, vs) :: rest => vs.flatMap fun v => (product rest).map ((n, v) :: ·)

/-- Lines 346-376: the analysed definitions. -/
def defineProduct (required : List String) (defs : List Define) :
    Except String (List (List (String × Int))) :=
  if required = [] then .ok [[]]
  else
    let dict := defineDict required defs
    if required.any fun n => !dict.any (·.1 == n) then .error "ValueError"
    else .ok (product dict)

/-! ### Identifiers (`kerncraft.py:68-71`, `247-277`) -/

/-- Lines 68-71 `uniquify`: `seen` is the set of the elements before. -/
def uniquifyAux {α : Type} [DecidableEq α] : List α → List α → List α
  | _, [] => []
  | seen, x :: xs => if x ∈ seen then uniquifyAux seen xs else x :: uniquifyAux (x :: seen) xs

def uniquify {α : Type} [DecidableEq α] (l : List α) : List α := uniquifyAux [] l

mutual
/-- Python values made of lists, tuples and other objects. -/
inductive PyVal (A : Type) where
  | atom (a : A)
  | list (l : PyVals A)
  | tuple (l : PyVals A)

/-- Element sequences. -/
inductive PyVals (A : Type) where
  | nil
  | cons (x : PyVal A) (xs : PyVals A)
end

mutual
/-- Lines 247-257 `to_tuple`. -/
def toTuple {A : Type} : PyVal A → PyVal A
  | .atom a => .atom a
  | .list l => .tuple (toTuples l)
  | .tuple l => .tuple (toTuples l)

/-- The elements: `to_tuple(x[:1]) + to_tuple(x[1:])`, `(to_tuple(x[0]),)`, `()`. -/
def toTuples {A : Type} : PyVals A → PyVals A
  | .nil => .nil
  | .cons x .nil => .cons (toTuple x) .nil
  | .cons x (.cons y ys) => .cons (toTuple x) (toTuples (.cons y ys))
end

/-- Values of command line arguments: plain values or open files with their names. -/
inductive ArgVal (A : Type) where
  | val (v : PyVal A)
  | file (name : A)

/-- Lines 270-276: the part of the identifier for one argument. -/
def identPart {A : Type} : ArgVal A → PyVal A
  | .val (.atom a) => .atom a
  | .val (.list l) => toTuple (toTuple (.list l))
  | .val (.tuple l) => toTuple (.tuple l)
  | .file n => .atom n

/-- Line 267. -/
def ignoredKeys : List String := ["verbose", "store", "unit", "clean_intermediates"]

/-- Lines 260-277 `identifier_from_arguments`; `kwargs` override arguments of the same name. -/
def identifier {A : Type} (args : List (String × ArgVal A)) (kwargs : List (String × PyVal A)) :
    List (String × PyVal A) :=
  (args.insertionSort (fun a b => a.1 ≤ b.1)).filterMap fun (k, v) =>
    match kwargs.lookup k with
    | some w => some (k, w)
    | none => if k ∈ ignoredKeys then none else some (k, identPart v)

/-- Atoms of the `define` argument: names, numbers and the empty dictionary. -/
inductive Atom where
  | str (s : String)
  | int (i : Int)
  | emptyDict
deriving DecidableEq

/-- Does `hash` accept the atom? -/
def Atom.hashable : Atom → Bool
  | .emptyDict => false
  | _ => true

mutual
/-- Does `hash` accept the value? -/
def PyVal.hashable {A : Type} (h : A → Bool) : PyVal A → Bool
  | .atom a => h a
  | .list _ => false
  | .tuple l => l.hashable h

def PyVals.hashable {A : Type} (h : A → Bool) : PyVals A → Bool
  | .nil => true
  | .cons x xs => x.hashable h && xs.hashable h
end

/-- Elements of `itertools.product(*define_dict.values())`: a tuple of `[name, value]` lists. -/
def definePairs : List (String × Int) → PyVals Atom
  | [] => .nil
  | (n, v) :: r => .cons (.list (.cons (.atom (.str n)) (.cons (.atom (.int v)) .nil))) (definePairs r)

/-- Lines 346, 371, 376: an element of `define_product`; without required constants it is `{}`. -/
def defineArg (required : List String) (combination : List (String × Int)) : PyVal Atom :=
  if required = [] then .atom .emptyDict else .tuple (definePairs combination)

/-- Lines 405-407: storing a result under the identifier, of which only the `define` part is considered here. -/
def storeKey (required : List String) (combination : List (String × Int)) : Except String (PyVal Atom) :=
  let k := toTuple (defineArg required combination)
  if k.hashable Atom.hashable then .ok k else .error "TypeError"

/-! ### Result storage (`kerncraft.py:306-314`, `407-417`) -/

section
variable {S B : Type}

/-- Files: the result file and its temporary companion, as byte strings; `none`: missing. -/
structure Files (B : Type) where
  main : Option (List B)
  tmp : Option (List B)

/-- File operations of one store: lines 414-417. -/
inductive StoreOp (B : Type) where
  | openTmp
  | write (b : B)
  | move

/-- Effect of one operation. `open(..., 'wb+')` truncates, `shutil.move` in one directory is `rename`. -/
def StoreOp.apply (f : Files B) : StoreOp B → Files B
  | .openTmp => { f with tmp := some [] }
  | .write b => { f with tmp := f.tmp.map (· ++ [b]) }
  | .move => match f.tmp with
    | some c => ⟨some c, none⟩
    | none => f

/-- Operations that store one state of `result_storage`. -/
def storeOps (dump : S → List B) (s : S) : List (StoreOp B) :=
  .openTmp :: (dump s).map .write ++ [.move]

/-- State of the file system after a crash behind the first `k` operations of a run storing the states `ss`
one after the other. -/
def crashAfter (dump : S → List B) (ss : List S) (k : Nat) (f : Files B) : Files B :=
  ((ss.flatMap (storeOps dump)).take k).foldl StoreOp.apply f

end

/-! ### Concurrent runs

Processes share the directory. A file name refers to an inode; an open file keeps its inode when the name is
moved. -/

section
variable {B : Type}

/-- Shared file system: contents of the inodes, and the inodes of the result file and of the temporary file. -/
structure Inodes (B : Type) where
  contents : List (List B)
  main : Option Nat
  tmp : Option Nat
deriving DecidableEq

/-- Write one byte at an offset; a gap behind the end is filled with `zero`. -/
def writeAt (zero : B) (c : List B) (off : Nat) (b : B) : List B :=
  if off < c.length then c.set off b else c ++ List.replicate (off - c.length) zero ++ [b]

/-- One file operation of a process whose open file is the inode and offset `fd`. `none`: FileNotFoundError in
`move`. -/
def StoreOp.applyShared (zero : B) (s : Inodes B) (fd : Option (Nat × Nat)) :
    StoreOp B → Option (Inodes B × Option (Nat × Nat))
  | .openTmp =>
    match s.tmp with
    | some i => some ({ s with contents := s.contents.set i [] }, some (i, 0))
    | none => some ({ s with contents := s.contents ++ [[]], tmp := some s.contents.length },
        some (s.contents.length, 0))
  | .write b =>
    match fd with
    | some (i, off) =>
      some ({ s with contents := s.contents.modify i (writeAt zero · off b) }, some (i, off + 1))
    | none => none
  | .move =>
    match s.tmp with
    | some i => some ({ s with main := some i, tmp := none }, none)
    | none => none

/-- A process: its remaining operations and its open file. -/
structure Proc (B : Type) where
  ops : List (StoreOp B)
  fd : Option (Nat × Nat)

/-- Let the processes take turns as given by `schedule` (indices of processes); a process that fails stops. -/
def runShared (zero : B) : List Nat → List (Proc B) → Inodes B → List (Proc B) × Inodes B
  | [], ps, s => (ps, s)
  | i :: is, ps, s =>
    match ps[i]? with
    | none => runShared zero is ps s
    | some p =>
      match p.ops with
      | [] => runShared zero is ps s
      | op :: ops =>
        match op.applyShared zero s p.fd with
        | none => runShared zero is (ps.set i ⟨[], none⟩) s
        | some (s', fd) => runShared zero is (ps.set i ⟨ops, fd⟩) s'

/-- Content of the result file. -/
def Inodes.mainContent (s : Inodes B) : Option (List B) := s.main.bind (s.contents[·]?)

end

/-! ### Concurrent runs, seen through whole results

With the rename as atomic step: a run loads the file once at its start (lines 306-314), adds results (line 407) and
stores everything it has (lines 413-417). -/

section
variable {K R : Type} [DecidableEq K]

/-- `result_storage` -/
abbrev Storage (K R : Type) := K → Option R

/-- Steps of runs. -/
inductive Event (K R : Type) where
  | load (run : Nat)
  | add (run : Nat) (k : K) (r : R)
  | store (run : Nat)

/-- The result file and the storages in memory. -/
structure Shared (K R : Type) where
  file : Storage K R
  mem : Nat → Storage K R

/-- One step. -/
def Shared.step (s : Shared K R) : Event K R → Shared K R
  | .load i => { s with mem := fun j => if j = i then s.file else s.mem j }
  | .add i k r =>
    { s with mem := fun j => if j = i then (fun k' => if k' = k then some r else s.mem i k') else s.mem j }
  | .store i => { s with file := s.mem i }

end

/-! ### Merging (`picklemerge.py:8-20`) -/

mutual
/-- Nested dictionaries. -/
inductive Tree (K V : Type) where
  | leaf (v : V)
  | node (f : Forest K V)

/-- Entries of a dictionary, in order. -/
inductive Forest (K V : Type) where
  | nil
  | cons (k : K) (t : Tree K V) (rest : Forest K V)
end

section
variable {K V : Type} [DecidableEq K]

/-- `d.get(k)` -/
def Forest.get : Forest K V → K → Option (Tree K V)
  | .nil, _ => none
  | .cons k t rest, k' => if k = k' then some t else rest.get k'

/-- `d[k] = t` -/
def Forest.set : Forest K V → K → Tree K V → Forest K V
  | .nil, k', t' => .cons k' t' .nil
  | .cons k t rest, k', t' => if k = k' then .cons k t' rest else .cons k t (rest.set k' t')

/-- Is the dictionary empty? -/
def Forest.isNil : Forest K V → Bool
  | .nil => true
  | .cons _ _ _ => false

/-- Lines 8-20 `update`. A nonempty mapping merged into a leaf fails (`.get` or item assignment on a plain
value); an empty mapping leaves the leaf. -/
def update : Forest K V → Forest K V → Except String (Forest K V)
  | d, .nil => .ok d
  | d, .cons k (.leaf v) rest => update (d.set k (.leaf v)) rest
  | d, .cons k (.node f) rest =>
    match d.get k with
    | none =>
      match update .nil f with
      | .error e => .error e
      | .ok r => update (d.set k (.node r)) rest
    | some (.node g) =>
      match update g f with
      | .error e => .error e
      | .ok r => update (d.set k (.node r)) rest
    | some (.leaf v) =>
      if f.isNil then update (d.set k (.leaf v)) rest else .error "TypeError"

end

end Verif.Cli
