import Mathlib.Data.Rat.Floor
import Mathlib.Algebra.Order.Field.Rat

/-!
Model of `MachineModel._update_benchmarks` (`kerncraft/machinemodel.py:203-383`): sizes of the working sets, reuse of stored
entries and measuring. Sizes are in bytes, floats are rationals; `likwid-bench` is an arbitrary function. The kernel
descriptions (211-243), the choice of the fastest kernel (325-341) and messages are not modelled.
-/

namespace Verif.BenchUpdate

/-- An entry of the memory hierarchy: `size per group` (`none` for main memory) and `cores per group`. -/
structure Level where
  size : Option Nat
  cores : Nat
deriving DecidableEq, Repr

/-- Lines 268-269 and 270-271: size of a level for `c` cores. -/
def share (size cores c : Nat) : Except String ℚ :=
  if cores = 0 then .error "ZeroDivisionError" else .ok (max ((size : ℚ) * c / cores) size)

/-- Lines 255-261: the level before level `i`. -/
def previous (levels : List Level) (i : Nat) : Level :=
  if i = 0 then ⟨some 0, 1⟩ else levels.getD (i - 1) ⟨none, 0⟩

/-- Lines 265-275: working set of level `i` for `c` cores. -/
def totalSize (levels : List Level) (i c : Nat) : Except String ℚ :=
  match levels[i]? with
  | none => .error "IndexError"
  | some l => match l.size with
    | some s => do
      let a ← share s l.cores c
      match (previous levels i).size with
      | none => .error "TypeError"
      | some p => do
        let b ← share p (previous levels i).cores c
        .ok (max (a * (66 / 100)) (b * (1 + 2 / 10)))
    | none =>
      if levels.length < 2 then .error "IndexError"
      else match (levels.getD (levels.length - 2) ⟨none, 0⟩).size with
        | none => .error "TypeError"
        | some s => .ok (s * 15)

/-- Lines 248, 272, 275: working sets for 1, 2, ... cores. -/
def totalSizes (levels : List Level) (i cores : Nat) : Except String (List ℚ) :=
  (List.range' 1 cores).mapM (totalSize levels i)

/-! ### Reuse of entries -/

/-- Value of a key in an entry. -/
inductive Val where
  | int (n : Nat)
  | list (l : List ℚ)
deriving DecidableEq

/-- An entry of `benchmarks.measurements[level]`: sizes, and results and stats by kernel. -/
structure Entry where
  sizes : List (String × Val)
  results : Option (List (String × List ℚ))
  stats : Option (List (String × List (List ℚ)))
deriving DecidableEq

/-- Lines 264, 276-285: `sizes_dict` for a number of threads per core. -/
def sizesDict (tpc cores : Nat) (total : List ℚ) : List (String × Val) :=
  let cs := List.range' 1 cores
  [("threads per core", .int tpc),
   ("cores", .list (cs.map fun c => (c : ℚ))),
   ("threads", .list (cs.map fun c => ((c * tpc : Nat) : ℚ))),
   ("size per core", .list ((total.zip cs).map fun x => x.1 / x.2)),
   ("size per thread", .list ((total.zip cs).map fun x => x.1 / (x.2 * tpc : Nat))),
   ("total size", .list total)]

/-- Lines 291-298: exact and fuzzy comparison. -/
def differs (v w : Val) : Except String Bool :=
  if v = w then .ok false
  else match v, w with
    | .list a, .list b =>
      if (a.zip b).any fun x => min x.1 x.2 = 0 then .error "ZeroDivisionError"
      else .ok ((a.zip b).any fun x => decide (1 / 100 ≤ |x.1 - x.2| / min x.1 x.2))
    | _, _ => .error "TypeError"

/-- Lines 287-302: the loop over the items of `sizes_dict`. The comparison in lines 291 and 294 is with `sizes_dict` itself
(`all`), not with the stored entry. -/
def needsUpdate (all : List (String × Val)) (old : Entry) : List (String × Val) → Except String Bool
  | [] => .ok false
  | (k, v) :: rest =>
    if (old.sizes.lookup k).isSome then
      match all.lookup k with
      | none => .error "KeyError"
      | some w => match differs v w with
        | .error e => .error e
        | .ok d => (needsUpdate all old rest).map (d || ·)
    else .ok true

/-- Lines 304-313: the entry afterwards. -/
def update (overwrite : Bool) (new : List (String × Val)) (old : Option Entry) : Except String Entry :=
  match old with
  | none => .ok ⟨new, some [], some []⟩
  | some o => match needsUpdate new o new with
    | .error e => .error e
    | .ok u => if overwrite || u || o.results.isNone || o.stats.isNone then .ok ⟨new, some [], some []⟩ else .ok o

/-! ### Measuring -/

/-- Results and repetitions for one kernel, level and number of threads. -/
abbrev Lists := List ℚ × List (List ℚ)

/-- Lines 353-359: stored lists, or empty ones. `n` is the number of working sets. -/
def prepare (overwrite : Bool) (n : Nat) : Option (List ℚ) → Option (List (List ℚ)) → Lists
  | some r, some s => if overwrite || !(decide (r.length = s.length) && decide (s.length = n)) then ([], []) else (r, s)
  | _, _ => ([], [])

/-- `max(stats)` -/
def maximum : List ℚ → Except String ℚ
  | [] => .error "ValueError"
  | x :: xs => .ok (xs.foldl max x)

/-- Lines 361-377: one working set. `bench i r` is the bandwidth in repetition `r` for working set `i`. -/
def measureOne (reps : Nat) (bench : Nat → Nat → ℚ) (i : Nat) (l : Lists) : Except String Lists :=
  if l.1.length > i then .ok l
  else do
    let stats := (List.range reps).map (bench i)
    let m ← maximum stats
    .ok (l.1 ++ [m], l.2 ++ [stats])

/-- Lines 361-379: the working sets in their order. After each of them the lists are in the machine file, so a run that is
interrupted leaves the outcome for a smaller `n`. -/
def measure (reps : Nat) (bench : Nat → Nat → ℚ) (n : Nat) (l : Lists) : Except String Lists :=
  (List.range n).foldlM (fun l i => measureOne reps bench i l) l

end Verif.BenchUpdate
