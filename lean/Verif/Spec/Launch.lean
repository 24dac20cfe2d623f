import Verif.Spec.Numerals

/-!
How `likwid-perfctr` reads its command line, as far as it is used. Positions in the domain `S0` of the first socket count the physical cores first
and their other hardware threads afterwards. If `OMP_NUM_THREADS` is not set, programs run with as many threads as processors were given.
-/

namespace Verif.Launch

/-- The number that a text of digits stands for. -/
def number (t : List Char) : Option Nat := if t ≠ [] ∧ ∀ c ∈ t, c ∈ Numerals.digits then some (Numerals.value t) else none

/-- `S0:a` and `S0:a-b`: the positions from `a` to `b`. -/
def positions (t : List Char) : Option (List Nat) :=
  if "S0:".toList <+: t then
    match (t.drop 3).dropWhile (· ≠ '-') with
    | [] => (number (t.drop 3)).map fun a => [a]
    | _ :: b =>
      match number ((t.drop 3).takeWhile (· ≠ '-')), number b with
      | some i, some j => if i ≤ j then some (List.range' i (j + 1 - i)) else none
      | _, _ => none
  else none

/-- The first socket: physical cores, and hardware threads of each. -/
structure Socket where
  cores : Nat
  smt : Nat

/-- A measurement: the group or events, the physical core of every thread's processor, whether marked regions are measured, the program with its arguments and
its number of threads. -/
structure Launch where
  group : List Char
  processors : List Nat
  markers : Bool
  program : List (List Char)
  threads : Option Nat
deriving DecidableEq

/-- Options. -/
structure Opts where
  group : Option (List Char) := none
  cpus : Option (List Char) := none
  markers : Bool := false

/-- Options before the program, which is the first word without a dash. -/
def options : List (List Char) → Opts → Option (Opts × List (List Char))
  | [], _ => none
  | [w], o => if w.head? = some '-' then none else some (o, [w])
  | w :: x :: r, o =>
    if w = "-f".toList ∨ w = "-O".toList then options (x :: r) o
    else if w = "-m".toList then options (x :: r) { o with markers := true }
    else if w = "-g".toList then options r { o with group := some x }
    else if w = "-C".toList then options r { o with cpus := some x }
    else if w.head? = some '-' then none
    else some (o, w :: x :: r)

/-- What is measured, for the words of a command line and the value of `OMP_NUM_THREADS`. -/
def launch (s : Socket) (words : List (List Char)) (omp : Option (List Char)) : Option Launch :=
  match words with
  | [] => none
  | name :: rest =>
    if name ≠ "likwid-perfctr".toList then none else
    match options rest {} with
    | none => none
    | some (o, program) =>
      match o.group, o.cpus.bind positions with
      | some g, some ps =>
        if ∀ p ∈ ps, p < s.cores * s.smt then
          some ⟨g, ps.map (· % s.cores), o.markers, program, match omp with | none => some ps.length | some t => number t⟩
        else none
      | _, _ => none

end Verif.Launch
