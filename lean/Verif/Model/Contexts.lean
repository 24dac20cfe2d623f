import Verif.Spec.Contexts

/-!
The context managers `set_recursionlimit` (`kernel.py:42-49`) and `pprint_nosort` (`models/benchmark.py:32-38`), and the order of keys
`sympy_safe_key` (`models/benchmark.py:20-30`). A call is possible if the depth is then below the limit, and a limit can be set if the depth
is below it; the calls within the context managers are not counted.
-/

namespace Verif.Contexts

/-- `sys.setrecursionlimit` at a depth; `none` is a ValueError or RecursionError. -/
def setLimit (depth n : Nat) (s : Settings) : Option Settings :=
  if n < 1 then none else if n ≤ depth then none else some { s with limit := n }

/-- Runs a program at a depth: the settings afterwards, and whether it raised. -/
def exec : Nat → Prog → Settings → Settings × Bool
  | _, .skip, s => (s, false)
  | _, .raise, s => (s, true)
  | _, .needs k, s => (s, decide (s.key ≠ k))
  | d, .call p, s => if d + 1 < s.limit then exec (d + 1) p s else (s, true)
  | d, .seq p q, s =>
    match exec d p s with
    | (s1, true) => (s1, true)
    | (s1, false) => exec d q s1
  | d, .handle p q, s =>
    match exec d p s with
    | (s1, true) => exec d q s1
    | (s1, false) => (s1, false)
  -- `kernel.py:44-49`
  | d, .deep n p, s =>
    let old := s.limit
    match setLimit d n s with
    | none => (s, true)
    | some s1 =>
      match exec d p s1 with
      | (s2, raised) =>
        match setLimit d old s2 with
        | none => (s2, true)
        | some s3 => (s3, raised)
  -- `models/benchmark.py:34-38`
  | d, .nosort p, s =>
    let orig := s.key
    match exec d p { s with key := "sympy_safe_key" } with
    | (s1, raised) => ({ s1 with key := orig }, raised)

/-- `models/benchmark.py:28-30` `sympy_safe_key.__lt__`: comparison of tuples. -/
def lt (a b : Obj) : Bool :=
  if a.type = b.type then decide (a.id < b.id) else decide (a.type < b.type)

end Verif.Contexts
