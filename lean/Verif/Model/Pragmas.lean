import Verif.Model.Text

/-!
Model of the handling of OpenMP directives in generated kernels (`kernel.py:1212-1229`, `1447-1449`).
-/

namespace Verif.Pragmas

/-- `part in s` -/
def inText (part : List Char) : List Char → Bool
  | [] => part.isEmpty
  | c :: cs => part.isPrefixOf (c :: cs) || inText part cs

/-- `s.replace(part, '')`; `skip` characters of a match are still to be left out. -/
def remove (part : List Char) : Nat → List Char → List Char
  | _, [] => []
  | skip + 1, _ :: cs => remove part skip cs
  | 0, c :: cs => if part.isPrefixOf (c :: cs) then remove part (part.length - 1) cs else c :: remove part 0 cs

/-- Statements of the kernel function on top level: pragmas with their texts, the loop with the pragmas in it, and calls. -/
inductive Top where
  | pragma (s : List Char)
  | loop (inner : List (List Char))
  | call
deriving DecidableEq, Repr

/-- Texts of all pragmas, as `find_node_type` gives them. -/
def texts (tops : List Top) : List (List Char) :=
  tops.flatMap fun
    | .pragma s => [s]
    | .loop inner => inner
    | .call => []

/-- Lines 1220-1224: the text of a pragma afterwards. -/
def rewritten (s : List Char) : List Char := if inText "omp".toList s then remove " parallel".toList 0 s else s

/-- Lines 1212-1229 `get_kernel_loop_nest`. -/
def loopNest (tops : List Top) : List Top :=
  let nest := tops.map fun
    | .pragma s => .pragma (rewritten s)
    | .loop inner => .loop (inner.map rewritten)
    | .call => .call
  if (texts tops).any (inText "omp".toList) then nest else .pragma "omp for".toList :: nest

/-- Line 1449: `re.sub('#pragma omp[^\n]*\n', '', code)`; `skip` characters of a match are still to be left out. -/
def withoutOmp : Nat → List Char → List Char
  | _, [] => []
  | skip + 1, _ :: cs => withoutOmp skip cs
  | 0, c :: cs =>
    if "#pragma omp".toList.isPrefixOf (c :: cs) ∧ '\n' ∈ cs then withoutOmp (cs.takeWhile (· ≠ '\n')).length.succ cs
    else c :: withoutOmp 0 cs

end Verif.Pragmas
