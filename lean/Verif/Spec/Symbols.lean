/-!
Expressions with symbols and their values.
-/

namespace Verif.Symbols

/-- Expressions of sizes, bounds and subscripts. -/
inductive Expr where
  | num (n : Int)
  | sym (s : String)
  | neg (a : Expr)
  | add (a b : Expr)
  | mul (a b : Expr)
deriving DecidableEq

/-- Values of expressions; `none` if a symbol has no value. -/
def Expr.value (σ : String → Option Int) : Expr → Option Int
  | .num n => some n
  | .sym s => σ s
  | .neg a => (a.value σ).map (- ·)
  | .add a b => match a.value σ, b.value σ with
    | some x, some y => some (x + y)
    | _, _ => none
  | .mul a b => match a.value σ, b.value σ with
    | some x, some y => some (x * y)
    | _, _ => none

/-- Without a value of the symbol the expression has none. -/
def Needs (e : Expr) (s : String) : Prop := ∀ σ : String → Option Int, σ s = none → e.value σ = none

end Verif.Symbols
