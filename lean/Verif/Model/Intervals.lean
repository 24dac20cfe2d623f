import Mathlib.Data.List.Sort

/-!
Model of `kerncraft/intervals.py` (class `Intervals`, lines 5-52).

Two models are given:

* a pure one (`mk`, `contains`, `len`) in which a range is a pair of integers.
  It describes `Intervals(*args)` when the arguments are distinct list objects;
* a heap one (`HIv`, `andH`) in which a range is a reference to a mutable cell, because
  `Intervals.__and__` passes the inner lists of its operands on without copying them.

Simplifications: bounds are integers (the docstring only promises integers); ranges are two-element
lists.  Tuples are not modelled: enlarging a tuple raises `TypeError` in Python.
-/

namespace Verif.Intervals

/-- A range `[lower, upper]` of the internal storage. -/
abbrev Iv := Int × Int

/-- `intervals.py:16-18` `_enforce_order`: stable sort by the lower bound. -/
def enforceOrder (data : List Iv) : List Iv :=
  data.insertionSort (fun a b => a.1 ≤ b.1)

/-- `intervals.py:26-28`: enlarge the `i`-th range if the next one is longer. -/
def enlarge (data : List Iv) (i : Nat) (x y : Iv) : List Iv :=
  if x.2 < y.2 then data.set i (x.1, y.2) else data

theorem length_enlarge (data : List Iv) (i : Nat) (x y : Iv) :
    (enlarge data i x y).length = data.length := by
  unfold enlarge; split <;> simp

/-- `intervals.py:20-32` `_enforce_no_overlap(start_at)`: the index based `while` loop.  Note that the
index is incremented also after an entry was deleted. -/
def enforceNoOverlap (data : List Iv) (i : Nat) : List Iv :=
  if h : i + 1 < data.length then
    if data[i].2 ≥ data[i+1].1 then
      enforceNoOverlap ((enlarge data i data[i] data[i+1]).eraseIdx (i+1)) (i+1)
    else
      enforceNoOverlap data (i+1)
  else data
termination_by data.length - i
decreasing_by
  · have h1 := length_enlarge data i data[i] data[i+1]
    have h2 := List.length_eraseIdx_le (enlarge data i data[i] data[i+1]) (i+1)
    omega
  · omega

/-- `intervals.py:8-14` `__init__` with `sane=False`. -/
def mk (args : List Iv) : List Iv :=
  enforceNoOverlap (enforceOrder (args.filter (fun d => d.2 > d.1))) 0

/-- `intervals.py:50-52` `__eq__`. -/
def eq (a b : List Iv) : Bool := decide (a = b)

/-- `intervals.py:42-44` `__contains__`. -/
def contains (data : List Iv) (needle : Int) : Bool :=
  data.any (fun d => d.1 ≤ needle && needle < d.2)

/-- `intervals.py:38-40` `__len__` (`int(...)` is the identity on integers). -/
def len (data : List Iv) : Int :=
  (data.map (fun d => d.2 - d.1)).sum

/-! ### Heap model: ranges are references to mutable two-element lists -/

/-- The Python heap restricted to range lists: cell number ↦ (lower, upper). -/
abbrev Heap := Nat → Iv

/-- `data[i][1] = v` on a heap cell. -/
def setUpper (h : Heap) (r : Nat) (v : Int) : Heap :=
  fun r' => if r' = r then ((h r).1, v) else h r'

/-- `intervals.py:16-18` on references. -/
def enforceOrderH (h : Heap) (data : List Nat) : List Nat :=
  data.insertionSort (fun a b => (h a).1 ≤ (h b).1)

/-- `intervals.py:20-32` on references; returns the new heap and the new reference list. -/
def enforceNoOverlapH (h : Heap) (data : List Nat) (i : Nat) : Heap × List Nat :=
  if hi : i + 1 < data.length then
    if (h data[i]).2 ≥ (h data[i+1]).1 then
      let h' := if (h data[i]).2 < (h data[i+1]).2 then setUpper h data[i] (h data[i+1]).2 else h
      enforceNoOverlapH h' (data.eraseIdx (i+1)) (i+1)
    else
      enforceNoOverlapH h data (i+1)
  else (h, data)
termination_by data.length - i
decreasing_by
  · have h2 := List.length_eraseIdx_le data (i+1)
    omega
  · omega

/-- `intervals.py:34-36` `__and__`, including the constructor call on `self.data + other.data`. -/
def andH (h : Heap) (a b : List Nat) : Heap × List Nat :=
  let data := (a ++ b).filter (fun r => (h r).2 > (h r).1)
  enforceNoOverlapH h (enforceOrderH h data) 0

/-- `intervals.py:42-44` `__contains__` of an object with the given references. -/
def containsH (h : Heap) (data : List Nat) (needle : Int) : Bool :=
  contains (data.map h) needle

/-- A history of `&` operations: each step combines two earlier objects (given by their position in
the list of all objects) and appends the new object.  Objects that do not exist end the history. -/
def runAnds (h : Heap) (objs : List (List Nat)) : List (Nat × Nat) → Option (Heap × List (List Nat))
  | [] => some (h, objs)
  | (i, j) :: ops =>
    match objs[i]?, objs[j]? with
    | some a, some b =>
      let r := andH h a b
      runAnds r.1 (objs ++ [r.2]) ops
    | _, _ => none

end Verif.Intervals
