import Verif.Model.Measure
import Verif.Model.Text
import Verif.Spec.CLib

/-!
The main program of the benchmark (`kernel.py:1468-1516`, `CODE_TEMPLATE`) as it runs in one thread. Declarations are left out, and the
calls are events: what stands for `INIT_ARRAYS`, `DUMMY_CALLS` and `KERNEL_CALL` does not change `warmup` and `repeat`. Numbers do not
overflow, since both variables only count down to -1 or 0.
-/

namespace Verif.MainRun

open Verif.Text

/-- What the program does. -/
inductive Event where
  | markerInit
  | register
  | initArrays
  | dummy
  | kernel
  | start
  | stop
  | close
deriving DecidableEq

/-- Variables of the program. -/
inductive Var where
  | warmup
  | repeat
deriving DecidableEq

/-- Values: literals and `atoi(argv[1])`. -/
inductive Val where
  | lit (n : Int)
  | arg

/-- Conditions -/
inductive Cond where
  | ge (x : Var) (n : Int)
  | gt (x : Var) (n : Int)
  | eq (x : Var) (n : Int)

/-- Statements; a loop has a condition, the variable that is decremented, and a body. -/
inductive Cmd where
  | call (e : Event)
  | set (x : Var) (v : Val)
  | ite (c : Cond) (body : List Cmd)
  | loop (c : Cond) (x : Var) (body : List Cmd)

/-- Lines 1487-1514 -/
def template : List Cmd :=
  [.call .markerInit, .call .register, .call .initArrays, .call .dummy,
    .set .warmup (.lit 1),
    .loop (.ge .warmup 0) .warmup
      [.set .repeat (.lit 2),
        .ite (.eq .warmup 0) [.set .repeat .arg, .call .start],
        .loop (.gt .repeat 0) .repeat [.call .kernel, .call .dummy]],
    .call .stop, .call .close]

/-- Values of the variables. -/
abbrev Env := Var → Int

def Env.put (env : Env) (x : Var) (n : Int) : Env := fun y => if y = x then n else env y

def Cond.holds (env : Env) : Cond → Bool
  | .ge x n => decide (n ≤ env x)
  | .gt x n => decide (n < env x)
  | .eq x n => decide (env x = n)

def Val.eval (arg : List Char) : Val → Int
  | .lit n => n
  | .arg => CLib.atoi arg

/-- Execution with the first argument of the program; `none`: not finished after the given number of steps. -/
def exec (arg : List Char) : Nat → List Cmd → Env → Option (Env × List Event)
  | 0, _, _ => none
  | _ + 1, [], env => some (env, [])
  | fuel + 1, .call e :: cs, env => (exec arg fuel cs env).map fun r => (r.1, e :: r.2)
  | fuel + 1, .set x v :: cs, env => exec arg fuel cs (env.put x (v.eval arg))
  | fuel + 1, .ite c body :: cs, env =>
    if c.holds env then exec arg fuel (body ++ cs) env else exec arg fuel cs env
  | fuel + 1, .loop c x body :: cs, env =>
    if c.holds env then
      match exec arg fuel body env with
      | none => none
      | some (env', t) => (exec arg fuel (.loop c x body :: cs) (env'.put x (env' x - 1))).map fun r => (r.1, t ++ r.2)
    else exec arg fuel cs env

/-- `models/benchmark.py:381-386`, `str(repetitions)`: a float, or an integer after a time of zero. From 10^16 on, floats have an exponent
and are not modelled. -/
def repText (timePer : ℚ) (repetitions : Int) : List Char :=
  if timePer ≠ 0 then showInt repetitions ++ ['.', '0'] else showInt repetitions

end Verif.MainRun
