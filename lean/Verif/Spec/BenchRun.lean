import Verif.Spec.Tables

/-!
What `likwid-bench` is told and what it prints.
-/

namespace Verif.BenchSpec

open Verif.Text Verif.Likwid

/-! ### Output -/

/-- The text of a number. -/
def Number (x : ℚ) (t : List Char) : Prop :=
  (∃ n : Nat, x = n ∧ t = showNat n) ∨ ∃ d : Tables.Dec, d.frac ≠ [] ∧ x = d.value ∧ t = d.text

/-- The text has a line `MByte/s:   12.5`, and no earlier line begins so. -/
def Rate (x : ℚ) (s : List Char) : Prop :=
  ∃ pre a t b post, Blanks a ∧ a ≠ [] ∧ Blanks b ∧ Number x t ∧ s = pre ++ "MByte/s:".toList ++ a ++ t ++ b ++ post ∧
    (post = [] ∨ post.head? = some '\n') ∧ (pre = [] ∨ pre.getLast? = some '\n') ∧ ∀ l ∈ splitNl pre, ¬ "MByte/s:".toList <+: l

/-- A run that prints a bandwidth. -/
def Speed (run : Option (List Char)) (x : ℚ) : Prop := ∃ s, run = some s ∧ Rate x s

/-- A run that ends with an error, or that prints something without a bandwidth. -/
def Failure (run : Option (List Char)) : Prop :=
  run = none ∨ ∃ s, run = some s ∧ s ≠ [] ∧ ∀ l ∈ splitNl s, ¬ "MByte/s:".toList <+: l

/-- A line of the list of kernels: the name, and mostly a description. -/
def Entry (n l : List Char) : Prop :=
  n ≠ [] ∧ (∀ c ∈ n, isSpace c = false) ∧ (l = n ∨ ∃ d, d ≠ [] ∧ '\n' ∉ d ∧ (∀ c ∈ d.getLast?, isSpace c = false) ∧
    l = n ++ " - ".toList ++ d)

/-- The list of kernels, with empty lines around it. -/
def Listing (names : List (List Char)) (s : List Char) : Prop :=
  ∃ a ls b, (∀ c ∈ a, isSpace c = true) ∧ (∀ c ∈ b, isSpace c = true) ∧ names ≠ [] ∧ List.Forall₂ Entry names ls ∧
    s = a ++ joinNl ls ++ b

/-- The name has the beginning, and none of the excluded texts occurs in it. -/
def Suits (pre : List Char) (excludes : List (List Char)) (n : List Char) : Prop :=
  pre <+: n ∧ ∀ e ∈ excludes, ¬ e <:+: n

/-! ### Work groups -/

/-- A work group: socket, size in kB, number of threads, and how they are spread over the hardware threads. -/
structure Group where
  socket : Nat
  size : Nat
  threads : Nat
  chunk : Nat
  stride : Nat
deriving DecidableEq

/-- `S0:100kB:4:1:2` -/
def Group.text (g : Group) : List Char :=
  'S' :: showNat g.socket ++ ':' :: showNat g.size ++ 'k' :: 'B' :: ':' :: showNat g.threads ++ ':' :: showNat g.chunk ++
    ':' :: showNat g.stride

/-- The hardware thread of thread `k`, where the hardware threads of a socket are numbered core by core: chunks of threads
begin at multiples of the stride. -/
def Group.place (g : Group) (k : Nat) : Nat := k / g.chunk * g.stride + k % g.chunk

/-- The number of threads on a core with `m` hardware threads. -/
def Group.onCore (g : Group) (m core : Nat) : Nat := ((List.range g.threads).map g.place).countP fun h => decide (h / m = core)

end Verif.BenchSpec
