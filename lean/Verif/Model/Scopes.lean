import Verif.Model.CodeGen
import Verif.Spec.Scopes

/-!
Names in generated code (`kernel.py`): the main program (template 1469-1514, `get_main_code` 1517-1577) with its calls of `dummy`
(`_build_dummy_calls` 1287-1312), its call of the kernel (1460-1466) and the initialisation of arrays (1260-1285), and the kernel
function (`get_kernel_code` 1392-1457). Of statements only declarations, scopes and names are modelled. The macro `swap` is that of
`headers/kerncraft.h:6`, which is included in the main program only.
-/

namespace Verif.Scopes

open Verif.CodeGen Verif.Spec

/-- A kernel: its statements at top level, the type of counters, the constants, the loops from the outside with their counter and the names
in their head, the names in the innermost body, those in its array references, and the arguments of swaps. -/
structure Kernel where
  items : List Item
  indexType : List String
  consts : List String
  loops : List (String × List String)
  body : List String
  refs : List String
  swaps : List (String × String)

/-- A name in the loop nest as in the source: a counter of a loop around it, or a variable or constant. -/
def meaning (counters : List String) (n : String) : Thing := if n ∈ counters then .counter n else .var n

/-- The loop nest with the names in its innermost body. -/
def nest (counters : List String) (body : List String) : List (String × List String) → List Event
  | [] => body.map fun n => .use n (meaning counters n)
  | (c, ns) :: ls =>
    [.enter, .decl c (.counter c)] ++ ns.map (fun n => .use n (meaning (c :: counters) n)) ++ nest (c :: counters) body ls ++ [.leave]

/-- `headers/kerncraft.h:6`: `{void* t = a; a = b; b = t;}` -/
def swapMacro (p : String × String) : List Event :=
  [.enter, .decl "t" (.own "t"), .use p.1 (.var p.1), .use p.1 (.var p.1), .use p.2 (.var p.2), .use p.2 (.var p.2),
   .use "t" (.own "t"), .leave]

/-- Uses of things of the program. -/
def calls (n : String) : Event := .use n (.file n)

/-- A declaration of the main program with its initial value: `atoi(argv[i])` (lines 1194-1198) or `aligned_malloc(...)` (lines 157-174).
The name is declared before its initial value. -/
def declEvents (d : Decl) : List Event :=
  .decl d.name (.var d.name) :: match d.init with
    | .none => []
    | .number => []
    | .malloc e => calls "aligned_malloc" :: e.free.map fun n => .use n (.var n)
    | .argv _ => [calls "atoi", .use "argv" (.arg "argv")]

/-- Lines 1296-1308 `_build_dummy_calls`: the arguments. -/
def dummyCalls (items : List Item) : List Arg :=
  items.filterMap fun
    | .decl n (.arr _ _) => some (.id n)
    | .decl n (.base _) => some (.addr n)
    | _ => none

/-- The name in an argument. -/
def argUse : Arg → Event
  | .id n => .use n (.var n)
  | .addr n => .use n (.var n)

/-- Lines 1309-1312 -/
def dummyEvents (items : List Item) : List Event :=
  calls "var_false" :: (dummyCalls items).flatMap fun a => [calls "dummy", argUse a]

/-- Names of functions and variables outside of `main` that it uses. -/
def fileNames : List String :=
  ["atoi", "aligned_malloc", "kernel", "dummy", "var_false", "likwid_markerInit", "likwid_markerRegisterRegion",
   "likwid_markerStartRegion", "likwid_markerStopRegion", "likwid_markerClose"]

/-- The variables of the main program (lines 1542-1550). -/
def mainVars (k : Kernel) : List Decl := mainDecls k.items k.indexType k.consts

/-- Lines 1477-1489: up to the region, including the initialisation of arrays. -/
def mainHead (k : Kernel) : List Event :=
  fileNames.map (fun n => .decl n (.file n)) ++
  [.enter, .decl "argc" (.arg "argc"), .decl "argv" (.arg "argv")] ++ (mainVars k).flatMap declEvents ++
  [calls "likwid_markerInit", .enter, calls "likwid_markerRegisterRegion"]

/-- Lines 1491-1495 -/
def mainInit (k : Kernel) : List Event := nest [] k.refs k.loops ++ k.swaps.flatMap swapMacro ++ dummyEvents k.items

/-- Lines 1497-1504 -/
def mainRepeat : List Event :=
  [.enter, .decl "warmup" (.own "warmup"), .use "warmup" (.own "warmup"), .enter, .decl "repeat" (.own "repeat"), .use "warmup" (.own "warmup"),
   .use "repeat" (.own "repeat"), calls "atoi", .use "argv" (.arg "argv"), calls "likwid_markerStartRegion", .use "repeat" (.own "repeat")]

/-- Lines 1505-1506: `KERNEL_CALL` and `DUMMY_CALLS`. -/
def mainCall (k : Kernel) : List Event :=
  calls "kernel" :: (kernelCall k.items k.indexType k.consts).map argUse ++ dummyEvents k.items

/-- Lines 1507-1514 -/
def mainEnd : List Event :=
  [.leave, .leave, calls "likwid_markerStopRegion", .leave, calls "likwid_markerClose", .leave]

/-- The main program. -/
def mainEvents (k : Kernel) : List Event := mainHead k ++ mainInit k ++ mainRepeat ++ mainCall k ++ mainEnd

/-- Lines 1314-1325: the parameters. -/
def paramEvents (k : Kernel) : List Event :=
  (buildArrays k.items false).map (fun d => .decl d.name (.var d.name)) ++
  (getScalars k.items true "_").map (fun d => .decl d.name (.arg d.name)) ++
  (buildConsts k.indexType false k.consts).map (fun d => .decl d.name (.var d.name))

/-- Lines 1427-1437: reading scalars from their parameters, or writing them back. -/
def copyEvents (k : Kernel) : List Event :=
  (scalarCopies k.items).flatMap fun c => [.use c.1 (.var c.1), .use c.2 (.arg c.2)]

/-- Lines 1417-1444: the kernel function. A swap is a call here. -/
def kernelEvents (k : Kernel) : List Event :=
  [.decl "kernel" (.file "kernel"), .enter] ++ paramEvents k ++ (scalarCopies k.items).map (fun c => .decl c.1 (.var c.1)) ++
  copyEvents k ++ nest [] k.body k.loops ++
  k.swaps.flatMap (fun p => [calls "swap", .use p.1 (.var p.1), .use p.2 (.var p.2)]) ++ copyEvents k ++ [.leave]

end Verif.Scopes
