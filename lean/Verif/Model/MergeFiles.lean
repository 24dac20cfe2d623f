import Verif.Model.Cli

/-!
Model of the program `picklemerge` (`kerncraft/picklemerge.py:23-49`). The contents of files, reading and writing pickles are parameters. The state
of the files is recorded after every change, because the program may be stopped in between. Assertions are switched on. `collections.Mapping` does
not exist since Python 3.10.
-/

namespace Verif.Cli.MergeFiles

open Verif.Cli

/-- Python's minor version and the pickles. -/
structure Env (C K V : Type) where
  minor : Nat
  empty : C
  load : C → Except String (Tree K V)
  dump : Forest K V → C

abbrev Files (C : Type) := String → Option C

def put {C : Type} (fs : Files C) (p : String) (c : C) : Files C := fun q => if q = p then some c else fs q

section
variable {C K V : Type} [DecidableEq K]

/-- Lines 27-32: `argparse` opens all files, which must exist. -/
def openAll (fs : Files C) : List String → Except String Unit
  | [] => .ok ()
  | p :: ps => match fs p with
    | none => .error "ArgumentError"
    | some _ => openAll fs ps

/-- Lines 35-36 and 39-40: reading a file and the check for a mapping. -/
def loadMapping (e : Env C K V) (fs : Files C) (p : String) : Except String (Forest K V) :=
  match fs p with
  | none => .error "ArgumentError"
  | some c => match e.load c with
    | .error m => .error m
    | .ok t =>
      if e.minor ≥ 10 then .error "AttributeError" else
      match t with
      | .leaf _ => .error "AssertionError"
      | .node f => .ok f

/-- Lines 8-20: `update` of the first entry asks for `collections.Mapping`. -/
def updateIn (minor : Nat) (d u : Forest K V) : Except String (Forest K V) :=
  if minor ≥ 10 then (if u.isNil then .ok d else .error "AttributeError") else update d u

/-- Lines 38-42: the loop over the sources. -/
def mergeAll (e : Env C K V) (fs : Files C) : Forest K V → List String → Except String (Forest K V)
  | d, [] => .ok d
  | d, s :: ss => match loadMapping e fs s with
    | .error m => .error m
    | .ok u => match updateIn e.minor d u with
      | .error m => .error m
      | .ok d' => mergeAll e fs d' ss

/-- Lines 23-46 `main`: the states of the files after each change, the last one first, and the error if there is one. -/
def main (e : Env C K V) (fs : Files C) (dest : String) (sources : List String) : List (Files C) × Except String Unit :=
  match openAll fs (dest :: sources) with
  | .error m => ([fs], .error m)
  | .ok () => match loadMapping e fs dest with
    | .error m => ([fs], .error m)
    | .ok d => match mergeAll e fs d sources with
      | .error m => ([fs], .error m)
      | .ok r => ([put fs dest (e.dump r), put fs dest e.empty, fs], .ok ())

end

end Verif.Cli.MergeFiles
