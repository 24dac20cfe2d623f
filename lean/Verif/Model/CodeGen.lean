import Verif.Model.Layout
import Verif.Model.Text

/-!
Generated code: parameters of the kernel function, its call and the declarations of the main program
(`kernel.py:1177-1260`, `1314-1345`, `1460-1467`, `1521-1575`), and the arguments that the benchmark passes to the main
program (`models/benchmark.py:364-388`). The code is modelled as declarations and arguments, its text is not.
-/

namespace Verif.CodeGen

open Verif.Layout

/-- Top level statements of the kernel. -/
inductive Item where
  | decl (name : String) (type : CType)
  | other
deriving DecidableEq, Repr

/-- Types in the generated code: types of the kernel, pointers to them, and constant index types. -/
inductive Ty where
  | val (t : CType)
  | ptr (t : CType)
  | index (names : List String)
deriving DecidableEq, Repr

/-- Where a variable of the main program gets its value: memory of the given number of elements, an argument of the
program, or a number. -/
inductive Init where
  | none
  | malloc (elements : Sym)
  | argv (i : Nat)
  | number
deriving DecidableEq, Repr

/-- A declaration in the generated code. -/
structure Decl where
  name : String
  type : Ty
  init : Init
deriving DecidableEq, Repr

/-- Lines 1207-1210 `get_array_declarations` -/
def arrayDecls (items : List Item) : List (String × CType) :=
  items.filterMap fun
    | .decl n (.arr d t) => some (n, .arr d t)
    | _ => none

/-- Lines 1328-1333: the declarations of scalars. -/
def scalarDecls (items : List Item) : List (String × CType) :=
  items.filterMap fun
    | .decl n (.base t) => some (n, .base t)
    | _ => none

/-- Lines 145-175 `transform_array_decl_to_malloc` of a type. -/
def toMalloc (withInit : Bool) (t : CType) : Ty × Init :=
  match t with
  | .arr d inner => (.ptr inner, if withInit then .malloc d else .none)
  | .base n => (.val (.base n), .none)

/-- Lines 1235-1251 `_build_array_declarations` -/
def buildArrays (items : List Item) (withInit : Bool) : List Decl :=
  (arrayDecls items).map fun d =>
    let r := toMalloc withInit (transformDecl d.2).1
    ⟨d.1, r.1, r.2⟩

/-- Lines 1327-1345 `get_scalar_declarations` -/
def getScalars (items : List Item) (pointer : Bool) (suffix : String) : List Decl :=
  (scalarDecls items).map fun d => ⟨d.1 ++ suffix, if pointer then .ptr d.2 else .val d.2, .none⟩

/-- Lines 1177-1205 `_build_const_declartions`: `i` counts from 2. -/
def buildConstsFrom (indexType : List String) (withInit : Bool) : Nat → List String → List Decl
  | _, [] => []
  | i, k :: ks => ⟨k, .index indexType, if withInit then .argv i else .none⟩ :: buildConstsFrom indexType withInit (i + 1) ks

/-- Lines 1177-1205 -/
def buildConsts (indexType : List String) (withInit : Bool) (consts : List String) : List Decl :=
  buildConstsFrom indexType withInit 2 consts

/-- Lines 1314-1325 `_build_kernel_function_declaration`: the parameters. -/
def kernelParams (items : List Item) (indexType : List String) (consts : List String) : List Decl :=
  buildArrays items false ++ getScalars items true "_" ++ buildConsts indexType false consts

/-- Arguments of a call. -/
inductive Arg where
  | id (name : String)
  | addr (name : String)
deriving DecidableEq, Repr

/-- Lines 1460-1467 `_build_kernel_call` -/
def kernelCall (items : List Item) (indexType : List String) (consts : List String) : List Arg :=
  (buildArrays items true).map (fun d => .id d.name) ++
  (getScalars items false "").map (fun d => .addr d.name) ++
  (buildConsts indexType true consts).map (fun d => .id d.name)

/-- Lines 1353-1366 `_build_scalar_initializations` -/
def scalarInits (items : List Item) : List Decl :=
  (getScalars items false "").map fun d => { d with init := .number }

/-- Lines 1540-1550: the variables of the main program in the order of the template. -/
def mainDecls (items : List Item) (indexType : List String) (consts : List String) : List Decl :=
  buildConsts indexType true consts ++ buildArrays items true ++ scalarInits items

/-- Lines 1421-1432: scalars in the kernel function with the parameter they are read from and written to. -/
def scalarCopies (items : List Item) : List (String × String) :=
  (getScalars items false "").map fun d => (d.name, d.name ++ "_")

/-- `models/benchmark.py:364`, `385`: arguments of the main program. -/
def mainArgs (program repetitions : List Char) (consts : List (String × Int)) : List (List Char) :=
  program :: repetitions :: consts.map fun c => Text.showInt c.2

/-- Lines 1527-1534 with `lock_intermediate` (810-850): the main program of an earlier run, for its constants, is used if
there is one that is newer than the kernel; its place does not depend on the constants. -/
def mainUsed (items : List Item) (indexType : List String) (earlier : Option (List String)) (consts : List String) :
    List Decl :=
  mainDecls items indexType (earlier.getD consts)

end Verif.CodeGen
