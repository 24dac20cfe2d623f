import Mathlib.Data.List.Defs

/-!
Model of the iteration-space arithmetic of `kerncraft/kernel.py`, class `Kernel`.

Simplifications: loop bounds and increments are the integers that remain after the constants were
substituted (`subs_consts`); bounds that depend on other loop indices are not modelled.  Symbols are
identified with their position in the loop stack, so indices are lists in loop order (outermost
first) instead of dictionaries.
-/

namespace Verif.Iteration

/-- One entry of `_loop_stack`: `(name, start, end, incr)` without the name. -/
structure Loop where
  start : Int
  stop : Int
  incr : Int
deriving DecidableEq, Repr

/-- `symbolic/utils.py:12-16` `int_ceil(x, y)` on numbers: `ceiling(x / y)`.
`none` for `y = 0` (sympy yields complex infinity there, which no caller can use). -/
def intCeil (x y : Int) : Option Int :=
  if y = 0 then none else some (-((-x).fdiv y))

/-- `length = int_ceil((end-start), incr)`, e.g. `kernel.py:392`, `487`, `516`. -/
def Loop.length (l : Loop) : Option Int := intCeil (l.stop - l.start) l.incr

/-- `kernel.py:377-395` `iteration_length(dimension=None)`: product over the reversed loop stack,
starting from `total_length`. -/
def iterationLengthFrom (total : Int) : List Loop → Option Int
  | [] => some total
  | l :: ls => do
    let n ← l.length
    iterationLengthFrom (total * n) ls

def iterationLength (loops : List Loop) : Option Int :=
  iterationLengthFrom 1 loops.reverse

/-- `kernel.py:377-395` `iteration_length(dimension)`.  A Python index into the loop stack; negative
numbers count from the end; `none` is the `IndexError`. -/
def iterationLengthDim (loops : List Loop) (dimension : Int) : Option Int :=
  let i := if dimension < 0 then dimension + loops.length else dimension
  if i < 0 then none
  else match loops[i.toNat]? with
    | none => none
    | some l => iterationLengthFrom 1 [l]

/-- `kernel.py:472-504` `global_iterator_to_indices(git)`: the loop over the reversed loop stack.
`total` is `total_length`, `lastIncr` is `last_incr`.  `none` where Python would divide by zero
(a loop of length 0).  The result is in reversed loop order. -/
def unwind (g total lastIncr : Int) : List Loop → Option (List Int)
  | [] => some []
  | l :: ls => do
    let n ← l.length
    if total = 0 ∨ n = 0 then none
    else do
      let counter := l.start + (((g * lastIncr).fdiv total) * l.incr).fmod n
      let rest ← unwind g (total * n) l.incr ls
      some (counter :: rest)

/-- `kernel.py:472-504` `global_iterator_to_indices(git)`, indices in loop order. -/
def globalIteratorToIndices (loops : List Loop) (g : Int) : Option (List Int) :=
  (unwind g 1 1 loops.reverse).map List.reverse

/-- `kernel.py:506-518` `global_iterator()` evaluated at given indices (reversed loop order). -/
def windFrom (acc total : Int) : List Loop → List Int → Option Int
  | [], _ => some acc
  | _ :: _, [] => none
  | l :: ls, i :: is => do
    let n ← l.length
    windFrom (acc + (i - l.start) * total) (total * n) ls is

/-- `kernel.py:520-527` `indices_to_global_iterator(indices)`.
A missing index would leave a symbol in the result; it is modelled as `none`. -/
def indicesToGlobalIterator (loops : List Loop) (indices : List Int) : Option Int :=
  windFrom 0 1 loops.reverse indices.reverse

/-- `kernel.py:529-533` `max_global_iteration()`. -/
def maxGlobalIteration (loops : List Loop) : Option Int :=
  indicesToGlobalIterator loops (loops.map (fun l => l.stop - 1))

/-- `kernel.py:569-579`: the bound check of `compile_global_offsets` on the iterations to compile.
`.error` on the failed assertion and on `max()` of an empty array. -/
def checkIterations (loops : List Loop) (iters : List Int) : Except String Unit :=
  match iters.max? with
  | none => .error "ValueError: zero-size array to reduction operation maximum"
  | some m =>
    match iterationLength loops with
    | none => .error "TypeError"
    | some n => if m < n then .ok () else .error "AssertionError"

end Verif.Iteration
