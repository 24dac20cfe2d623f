import Verif.Model.Text
import Verif.Model.Bench

/-!
Model of how `perfctr` runs a program (`kerncraft/models/benchmark.py:197-232`, `models/standalone_benchmark.py:81-117`). Programs that are run are
a function of the words of the command line and of the environment; they do not change the environment of the caller. Messages are left out.
-/

namespace Verif.Launch

open Verif.Text Verif.Bench

/-- Lines 214-216 (108-110 of the stand-alone benchmark). -/
def cpu (cores : Int) : List Char := "S0:0".toList ++ if cores > 1 then '-' :: showInt (cores - 1) else []

/-- Lines 212-224 (106-117). The benchmark always passes `-m`, the stand-alone benchmark only with `--marker`. -/
def command (group : List Char) (cores : Int) (markers : Bool) (cmd : List (List Char)) : List (List Char) :=
  ["likwid-perfctr".toList, "-f".toList, "-O".toList, "-g".toList, group] ++ ["-C".toList, cpu cores] ++
    (if markers then ["-m".toList] else []) ++ cmd

/-- The variable of line 229 (121). -/
def variableName : List Char := "OMP_NUM_THREADS".toList

/-- Lines 205-232 (90-125): the environment afterwards and the lines of the output, or the exit code. -/
def perfctr (found : Bool) (exec : List (List Char) → Env (List Char) (List Char) → Except Nat (List Char)) (group : List Char) (cores : Int)
    (markers : Bool) (cmd : List (List Char)) (e : Env (List Char) (List Char)) :
    Env (List Char) (List Char) × Except Nat (List (List Char)) :=
  if found then
    match enterFix (fun _ _ => true) variableName none e with
    | none => (e, .error 1)
    | some e1 =>
      (leaveFix variableName (e variableName) e1,
        match exec (command group cores markers cmd) e1 with
        | .error _ => .error 1
        | .ok out => .ok (splitNl out))
  else (e, .error 1)

end Verif.Launch
