/-!
Model of the helpers of `kerncraft/models/benchmark.py`: register descriptions, the run planner and the
environment wrapper.
-/

namespace Verif.Bench

/-! ### Generators -/

/-- A Python generator: the values it yields and whether it raises after the last one. Consumers may stop
early and never see the exception. -/
structure Gen (α : Type) where
  vals : List α
  raises : Bool
deriving DecidableEq, Repr

/-- Running one generator after the other. -/
def Gen.append {α : Type} (a b : Gen α) : Gen α :=
  if a.raises then a else ⟨a.vals ++ b.vals, b.raises⟩

/-- `for c in l: yield from f(c)`. -/
def Gen.forEach {α β : Type} (l : List α) (f : α → Gen β) : Gen β :=
  match l with
  | [] => ⟨[], false⟩
  | a :: l => (f a).append (Gen.forEach l f)

/-! ### Register descriptions (`benchmark.py:62-126`) -/

/-- Line 79: `string.ascii_letters + string.digits`. -/
def orderedChars : List Char :=
  "abcdefghijklmnopqrstuvwxyzABCDEFGHIJKLMNOPQRSTUVWXYZ0123456789".toList

/-- `[a-zA-Z0-9]` in the tokenizer of line 80. -/
def isAlnum (c : Char) : Bool := orderedChars.contains c

/-- Lines 84-86: a range; `range(i, j + 1)` is empty if `j < i`. -/
def charRange (a b : Char) : List Char :=
  (orderedChars.drop (orderedChars.idxOf a)).take
    (orderedChars.idxOf b + 1 - orderedChars.idxOf a)

/-- `.` does not match a newline; `finditer` skips it. -/
def emit (c : Char) : List Char := if c = '\n' then [] else [c]

/-- Lines 62-88 `group_iterator`: leftmost tokens, a range first. -/
def groupIter : List Char → List Char
  | a :: '-' :: b :: rest =>
    if isAlnum a && isAlnum b then charRange a b ++ groupIter rest
    else emit a ++ groupIter ('-' :: b :: rest)
  | a :: rest => emit a ++ groupIter rest
  | [] => []

/-- Lines 111-112: `\[(?P<grp>[^]]+)\]` at the start of `u`: the group and the rest. -/
def matchGroup : List Char → Option (List Char × List Char)
  | '[' :: rest =>
    let g := rest.takeWhile (· != ']')
    match rest.dropWhile (· != ']') with
    | ']' :: tail => if g = [] then none else some (g, tail)
    | _ => none
  | _ => none

/-- Lines 114-119: first token of an alternative: the characters to choose from and the rest. `none`: no match,
the access to `m.group` raises AttributeError. -/
def firstToken : List Char → Option (List Char × List Char)
  | [] => none
  | c :: cs =>
    match matchGroup (c :: cs) with
    | some (g, rest) => some (groupIter g, rest)
    | none => if c = '\n' then none else some ([c], cs)

/-- Lines 113-126 for one alternative `u` without `|`; the recursive call gets a nonempty rest without `|`, so
that its own `split` gives one alternative. The first argument bounds the number of tokens. -/
def alternative : Nat → List Char → Gen (List Char)
  | 0, _ => ⟨[], true⟩
  | n + 1, u =>
    match firstToken u with
    | none => ⟨[], true⟩
    | some (current, rest) =>
      Gen.forEach current fun c =>
        if rest = [] then ⟨[[c]], false⟩
        else ⟨((alternative n rest).vals.map (c :: ·)), (alternative n rest).raises⟩

/-- Lines 91-126 `register_options`. An empty description first yields `None`. -/
def registerOptions (d : List Char) : Gen (Option (List Char)) :=
  Gen.append ⟨if d = [] then [none] else [], false⟩
    (Gen.forEach (d.splitOn '|') fun u =>
      ⟨(alternative u.length u).vals.map some, (alternative u.length u).raises⟩)

/-! ### Run planner (`benchmark.py:159-188`) -/

section
variable {N D P R : Type} [DecidableEq N] [DecidableEq D] [DecidableEq P] [DecidableEq R]

/-- An event tuple: name, register description, parameters. -/
structure Ev (N D P : Type) where
  name : N
  regs : D
  params : P
deriving DecidableEq, Repr

/-- Line 162: keep first occurrences. -/
def dedupe {α : Type} [DecidableEq α] : List α → List α → List α
  | _, [] => []
  | seen, e :: es => if e ∈ seen then dedupe seen es else e :: dedupe (e :: seen) es

/-- Lines 176-183: the first option not in use; `error`: the generator raised before one was found. -/
def freeReg (used : List R) (g : Gen R) : Except String (Option R) :=
  match g.vals.find? (fun r => !used.contains r) with
  | some r => .ok (some r)
  | none => if g.raises then .error "AttributeError" else .ok none

/-- Lines 169-183: one pass over the events for the current run. `run` is the insertion-ordered dictionary from
register to (event, register, parameters), kept with the event tuple it was made for. -/
def planPass (opts : D → Gen R) :
    List (Ev N D P) → List (Ev N D P × R) → List (Ev N D P) →
    Except String (List (Ev N D P × R) × List (Ev N D P))
  | [], run, scheduled => .ok (run, scheduled)
  | e :: es, run, scheduled =>
    if e ∈ scheduled then planPass opts es run scheduled
    else
      match freeReg (run.map (·.2)) (opts e.regs) with
      | .error x => .error x
      | .ok none => planPass opts es run scheduled
      | .ok (some r) => planPass opts es (run ++ [(e, r)]) (scheduled ++ [e])

/-- Lines 168-184: the loop; a run dictionary exists only if something was entered. `none`: the given number of
iterations does not suffice. -/
def planLoop (opts : D → Gen R) (events : List (Ev N D P)) :
    Nat → List (List (Ev N D P × R)) → List (Ev N D P) →
    Option (Except String (List (List (Ev N D P × R))))
  | fuel, runs, scheduled =>
    if scheduled.length = events.length then some (.ok runs)
    else
      match fuel with
      | 0 => none
      | fuel + 1 =>
        match planPass opts events [] scheduled with
        | .error x => some (.error x)
        | .ok (run, scheduled) =>
          planLoop opts events fuel (if run = [] then runs else runs ++ [run]) scheduled

/-- Lines 159-188: the returned runs as lists of (event, register, parameters); `none`: still running after
`fuel` iterations. -/
def buildRuns (opts : D → Gen R) (events : List (Ev N D P)) (fuel : Nat) :
    Option (Except String (List (List (N × R × P)))) :=
  (planLoop opts (dedupe [] events) fuel [] []).map fun
    | .error x => .error x
    | .ok runs => .ok (runs.map (fun run => run.map fun x => (x.1.name, x.2, x.1.params)))

end

/-! ### Environment wrapper (`benchmark.py:41-59`) -/

section
variable {K V : Type} [DecidableEq K]

/-- Environment variables. -/
abbrev Env (K V : Type) := K → Option V

/-- Setting or deleting one variable. -/
def Env.set (e : Env K V) (k : K) (v : Option V) : Env K V := fun k' => if k' = k then v else e k'

/-- Code that runs inside the wrapper: arbitrary changes of the environment, exceptions, handlers and nested
wrappers. -/
inductive Prog (K V : Type) where
  | skip
  | change (f : Env K V → Env K V)
  | raise
  | seq (a b : Prog K V)
  | branch (c : Env K V → Bool) (a b : Prog K V)
  | tryExcept (a handler : Prog K V)
  | fix (name : K) (value : Option V) (body : Prog K V)

/-- Lines 44-50: entering the wrapper. `none`: the value is rejected (e.g. embedded null byte) before anything
is changed. -/
def enterFix (accepts : K → V → Bool) (name : K) (value : Option V) (e : Env K V) : Option (Env K V) :=
  match value with
  | some v => if accepts name v then some (e.set name (some v)) else none
  | none => if (e name).isSome then some (e.set name none) else some e

/-- Lines 53-59: the `finally` part; setting the former value is accepted. -/
def leaveFix (name : K) (orig : Option V) (e : Env K V) : Env K V :=
  match orig with
  | some v => e.set name (some v)
  | none => if (e name).isSome then e.set name none else e

/-- Result: final environment and whether an exception is propagating. Lines 41-59 are the case `fix`; the
`finally` part runs for both outcomes. -/
def Prog.run (accepts : K → V → Bool) : Prog K V → Env K V → Env K V × Bool
  | .skip, e => (e, false)
  | .change f, e => (f e, false)
  | .raise, e => (e, true)
  | .seq a b, e =>
    let r := a.run accepts e
    if r.2 then r else b.run accepts r.1
  | .branch c a b, e => if c e then a.run accepts e else b.run accepts e
  | .tryExcept a h, e =>
    let r := a.run accepts e
    if r.2 then h.run accepts r.1 else r
  | .fix name value body, e =>
    match enterFix accepts name value e with
    | none => (e, true)
    | some e1 => (leaveFix name (e name) (body.run accepts e1).1, (body.run accepts e1).2)

end

end Verif.Bench
