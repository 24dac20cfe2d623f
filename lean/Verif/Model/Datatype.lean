import Mathlib.Data.List.Basic
import Mathlib.Data.List.Dedup

/-!
Types of variables (`kernel.py:221-225`, `242-245`, `266-281`, `937-951`, `1849-1854`) and the precision of the peak performance
(`models/roofline.py:161-165`). A type is the tuple of its names, as the parser gives them.
-/

namespace Verif.Datatype

abbrev Ty := List String

/-- `datatypes_size` (221-225) -/
def sizes : List (Ty × Nat) := [(["double", "_Complex"], 16), (["float", "_Complex"], 8), (["double"], 8), (["float"], 4)]

/-- `self.datatype` and `self.variables` with types and sizes; sizes are of any kind. -/
structure State (δ : Type) where
  datatype : Option Ty := none
  vars : List (String × Ty × Option δ) := []

/-- `d[k] = v` on an insertion-ordered dictionary. -/
def put {β : Type} (k : String) (v : β) : List (String × β) → List (String × β)
  | [] => [(k, v)]
  | (k', v') :: t => if k' = k then (k, v) :: t else (k', v') :: put k v t

/-- `set_variable` (266-281); the size is a tuple or None. -/
def setVariable {δ : Type} (s : State δ) (d : String × Ty × Option δ) : Except String (State δ) :=
  if (sizes.lookup d.2.1).isNone then .error "AssertionError: only float, double, float _Complex and double _Complex variables are supported"
  else
    match s.datatype with
    | none => .ok { datatype := some d.2.1, vars := put d.1 d.2 s.vars }
    | some t => if d.2.1 = t then .ok { s with vars := put d.1 d.2 s.vars }
      else .error "AssertionError: mixing of datatypes within a kernel is not supported."

/-- `check` (242-245) -/
def check {δ : Type} (s : State δ) : Except String Unit :=
  if ((s.vars.map fun v => v.2.1).dedup).length ≤ 1 then .ok () else .error "AssertionError: mixing of datatypes within a kernel is not supported."

/-- `_process_code` (937-951) and `check` (758) for the declarations of a code. -/
def declare {δ : Type} (ds : List (String × Ty × Option δ)) : Except String (State δ) :=
  match ds.foldlM setVariable {} with
  | .error e => .error e
  | .ok s => match check s with
    | .error e => .error e
    | .ok () => .ok s

/-- `KernelDescription` (1849-1854, 1871) for the arrays of a description, whose types are tuples. -/
def describe {δ : Type} (ds : List (String × Ty × Option δ)) : Except String (State δ) :=
  match ds.foldlM setVariable {} with
  | .error e => .error e
  | .ok s => match s.vars with
    | [] => .error "IndexError"
    | v :: _ =>
      let s := { s with datatype := some v.2.1 }
      match check s with
      | .error e => .error e
      | .ok () => .ok s

/-- `self.kernel.datatypes_size[self.kernel.datatype]` -/
def elementSize {δ : Type} (s : State δ) : Except String Nat :=
  match s.datatype.bind fun t => sizes.lookup t with
  | some n => .ok n
  | none => .error "KeyError"

/-- A Python value that is a text or a tuple of texts. -/
inductive TextOrTuple where
  | text (s : String)
  | tuple (l : List String)
deriving DecidableEq

/-- `'DP' if self.kernel.datatype == 'double' else 'SP'` (`roofline.py:161`); the type is a tuple. -/
def precision (t : Ty) : String := if TextOrTuple.tuple t = TextOrTuple.text "double" then "DP" else "SP"

end Verif.Datatype
