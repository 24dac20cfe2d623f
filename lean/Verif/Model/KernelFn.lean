import Verif.Model.CodeGen

/-!
Execution of the generated kernel function (`kernel.py:1392-1455`) by its call in the main program. The loop nest is a function of the
scalars it refers to and of the arrays; one thread.
-/

namespace Verif.KernelFn

open Verif.CodeGen

/-- Statements of the kernel function: `s = *p;`, the loop nest, and `*p = s;`. -/
inductive Stmt where
  | fromPtr (s p : String)
  | nest
  | toPtr (p s : String)
deriving DecidableEq, Repr

/-- Lines 1421-1433: the statements after the declarations. -/
def kernelBody (items : List Item) : List Stmt :=
  (scalarCopies items).map (fun c => .fromPtr c.1 c.2) ++ [.nest] ++ (scalarCopies items).map fun c => .toPtr c.2 c.1

/-- Values of the scalars of the main program, of the static scalars of the kernel function, and the arrays. -/
structure State (V A : Type) where
  main : String → V
  statics : String → V
  arrays : A

/-- Assignment. -/
def assign {V : Type} (f : String → V) (x : String) (v : V) : String → V := fun y => if y = x then v else f y

/-- One statement; `env` are the arguments of the parameters. `none`: the parameter is no address. -/
def step {V A : Type} (nest : (String → V) → A → (String → V) × A) (env : List (String × Arg)) (st : State V A) : Stmt → Option (State V A)
  | .fromPtr s p =>
    match env.lookup p with
    | some (.addr x) => some { st with statics := assign st.statics s (st.main x) }
    | _ => none
  | .nest => some { st with statics := (nest st.statics st.arrays).1, arrays := (nest st.statics st.arrays).2 }
  | .toPtr p s =>
    match env.lookup p with
    | some (.addr x) => some { st with main := assign st.main x (st.statics s) }
    | _ => none

/-- A call of the kernel function; parameters and static variables have to have different names (`none` otherwise). -/
def call {V A : Type} (nest : (String → V) → A → (String → V) × A) (items : List Item) (indexType consts : List String) (st : State V A) :
    Option (State V A) :=
  let params := (kernelParams items indexType consts).map Decl.name
  if (params ++ (scalarCopies items).map Prod.fst).Nodup then
    (kernelBody items).foldlM (step nest (params.zip (kernelCall items indexType consts))) st
  else none

end Verif.KernelFn
