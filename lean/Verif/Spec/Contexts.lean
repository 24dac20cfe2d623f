import Mathlib.Data.Char
import Mathlib.Data.List.Lex

/-!
Programs that change global settings for a block, and objects that are compared for printing.
-/

namespace Verif.Contexts

/-- The settings of the interpreter that are changed: how deep calls may be, and how keys are compared when they are printed. -/
structure Settings where
  limit : Nat
  key : String
deriving DecidableEq, Repr

/-- What the programs do. -/
inductive Prog where
  | skip
  | raise
  /-- raises unless keys are compared in this way -/
  | needs (key : String)
  | call (p : Prog)
  | seq (p q : Prog)
  /-- `try: p` / `except: q` -/
  | handle (p q : Prog)
  /-- `with set_recursionlimit(n): p` -/
  | deep (n : Nat) (p : Prog)
  /-- `with pprint_nosort(): p` -/
  | nosort (p : Prog)
deriving DecidableEq, Repr

/-- `n` calls within each other. -/
def nested : Nat → Prog
  | 0 => .skip
  | n + 1 => .call (nested n)

/-- An object: the text of its type, and its identity. -/
structure Obj where
  type : List Char
  id : Nat
deriving DecidableEq, Repr

end Verif.Contexts
