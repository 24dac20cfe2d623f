import Verif.Model.CodeGen
import Verif.Spec.Parallel

/-!
Execution of the generated kernel function by several threads (`kernel.py:1427-1444`), called again and again inside of the parallel
region of the main program (1485-1512). Every thread copies the scalars from the main program to the static variables of the kernel
function, which all threads share, executes the iterations of the outer loop that it is given (`omp for`, line 1227), waits for the
others at the end of the loop, and copies the scalars back. There is no other barrier. Threads read and write single places in any
order (sequentially consistent memory). Not modelled: `nowait` and `reduction` in directives of the kernel, calls of `swap`.
-/

namespace Verif.Parallel

open Verif.CodeGen

/-- Places in memory: scalars of the main program, static scalars of the kernel function, and elements of arrays. -/
inductive Loc where
  | main (s : String)
  | static (s : String)
  | elem (array : String) (i : Int)
deriving DecidableEq, Repr

/-- Lines 1429-1437: in the kernel function, names of scalars are those of the static variables. -/
def place : Name → Loc
  | .scalar s => .static s
  | .elem a i => .elem a i

variable {V : Type}

/-- The assignments of the kernel function. -/
def compiled (a : Assign Name V) : Assign Loc V := ⟨a.reads.map place, place a.target, a.value⟩

/-- `a = b;` for two places. -/
def copy [Inhabited V] (p q : Loc) : Assign Loc V := ⟨[q], p, fun l => l.headD default⟩

/-- Scalars of the kernel. -/
def scalarNames (items : List Item) : List String := (scalarCopies items).map Prod.fst

/-- Line 1435: `s = *s_;` for each scalar; for the addresses passed see C111. -/
def copyIn [Inhabited V] (items : List Item) : List (Assign Loc V) := (scalarNames items).map fun s => copy (.static s) (.main s)

/-- Line 1436: `*s_ = s;` for each scalar. -/
def copyOut [Inhabited V] (items : List Item) : List (Assign Loc V) := (scalarNames items).map fun s => copy (.main s) (.static s)

/-- A thread: what it has read for the assignment it executes, and this one, without the places already read, with all further ones. -/
structure Thread (V : Type) where
  got : List V
  rest : List (Assign Loc V)

/-- A step of a thread: it reads or writes a place. -/
def Thread.step (m : Loc → V) (t : Thread V) : Option ((Loc → V) × Thread V) :=
  match t.rest with
  | [] => none
  | ⟨l :: ls, p, f⟩ :: rest => some (m, ⟨t.got ++ [m l], ⟨ls, p, f⟩ :: rest⟩)
  | ⟨[], p, f⟩ :: rest => some (put m p (f t.got), ⟨[], rest⟩)

/-- A step of one of the threads. -/
def stepAt (i : Nat) (st : (Loc → V) × List (Thread V)) : Option ((Loc → V) × List (Thread V)) :=
  match st.2[i]? with
  | none => none
  | some t => (t.step st.1).map fun r => (r.1, st.2.set i r.2)

/-- Steps of the threads in the given order. -/
def steps (order : List Nat) (st : (Loc → V) × List (Thread V)) : Option ((Loc → V) × List (Thread V)) :=
  order.foldlM (fun st i => stepAt i st) st

/-- The assignments of all threads from one barrier to the next, in the given order; `none` if it is not possible or not complete. -/
def phase (order : List Nat) (progs : List (List (Assign Loc V))) (m : Loc → V) : Option (Loc → V) :=
  match steps order (m, progs.map fun p => ⟨[], p⟩) with
  | none => none
  | some (m', ts) => if ts.all (fun t => t.rest.isEmpty) then some m' else none

/-- The assignments between barriers: before each loop all copies, and those of the call before. `calls` are the iterations of each
thread for each call. -/
def phases [Inhabited V] (items : List Item) (threads : Nat) (before : List (Assign Loc V)) :
    List (List (List (List (Assign Name V)))) → List (List (List (Assign Loc V)))
  | [] => [List.replicate threads before]
  | parts :: calls =>
    (parts.map fun p => before ++ copyIn items ++ p.flatten.map compiled) :: phases items threads (copyOut items) calls

/-- All phases, each in an order of its own. -/
def runPhases : List (List Nat) → List (List (List (Assign Loc V))) → (Loc → V) → Option (Loc → V)
  | [], [], m => some m
  | o :: os, p :: ps, m => (phase o p m).bind (runPhases os ps)
  | _, _, _ => none

/-- Lines 1503-1506 and 1485-1512: the calls of the kernel function by all threads, until the end of the parallel region. -/
def parallel [Inhabited V] (items : List Item) (threads : Nat) (calls : List (List (List (List (Assign Name V))))) (orders : List (List Nat))
    (m : Loc → V) : Option (Loc → V) :=
  runPhases orders (phases items threads [] calls) m

/-- What the main program has of it: its scalars and the arrays. -/
def visible (m : Loc → V) : Name → V
  | .scalar s => m (.main s)
  | .elem a i => m (.elem a i)

end Verif.Parallel
