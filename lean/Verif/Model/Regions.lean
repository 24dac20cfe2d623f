import Verif.Model.Analyzer
import Mathlib.Data.List.Dedup

/-!
Which regions a stand-alone benchmark measures, and what it takes for their loops, repetitions and operations: `--marker`
(`standalone_pheno.py:247-260`, `316-318`), `kernel.py:1911`, `1951-1984` and `models/standalone_benchmark.py:259-281`. A set is a list without
repetitions. Values of the dictionaries are parameters (`Pheno`, C102 to C104); that `self.repetitions[r]` is the same object for several regions is in
`Repetitions` (C135).
-/

namespace Verif.Regions

open Verif.Analyzer

/-- `--marker` was not given, given without or with a text. -/
inductive Arg where
  | absent
  | alone
  | text (s : List Char)

/-- `ParseMarkers` and the default of `--marker`: `use_marker` and `region`. -/
def parseMarkers : Arg → Bool × List (List Char)
  | .absent => (false, [[]])
  | .alone => (true, [])
  | .text s => (true, if s = [] then [] else splitOn ',' s)

/-- `kernel.py:1951-1952` and `standalone_benchmark.py:266-268`: `set(l)`, and `''` is discarded if there is anything else. -/
def regionSet (l : List (List Char)) : List (List Char) :=
  let rs := l.dedup
  if rs.length > 1 then rs.filter (· ≠ []) else rs

/-- `if not region in d: d[region] = d['']`; a KeyError ends the program (1979-1982). -/
def fill {α : Type} (d : List (List Char × α)) (r : List Char) : Except String (List (List Char × α)) :=
  match d.lookup r with
  | some _ => .ok d
  | none => match d.lookup [] with
    | some v => .ok (d ++ [(r, v)])
    | none => .error "SystemExit"

/-- What is known about regions. -/
structure Info (α β γ : Type) where
  loops : List (List Char × α)
  repetitions : List (List Char × β)
  flops : List (List Char × γ)

variable {α β γ : Type}

/-- `kernel.py:1961-1984` `check` -/
def check (i : Info α β γ) : List (List Char) → Except String (Info α β γ)
  | [] => .ok i
  | r :: rs => do
    let l ← fill i.loops r
    let n ← fill i.repetitions r
    let f ← fill i.flops r
    check ⟨l, n, f⟩ rs

/-- A key of a dictionary. -/
def get {δ : Type} (d : List (List Char × δ)) (r : List Char) : Except String δ :=
  match d.lookup r with
  | some v => .ok v
  | none => .error "KeyError"

/-- A measured region: name, loops, repetitions, operations and runtime. -/
structure Measured (α β γ δ : Type) where
  region : List Char
  loops : α
  repetitions : β
  flops : γ
  runtime : δ

/-- The regions that are measured with what is known about them. `found` are the regions in the output (`results.keys()`), with `''`
because of the line on the clock (159), `runtime` are their runtimes. -/
def measured {δ : Type} (arg : Arg) (i : Info α β γ) (found : List (List Char)) (runtime : List (List Char × δ)) :
    Except String (List (Measured α β γ δ)) := do
  let rs := regionSet (parseMarkers arg).2
  let i ← check i rs
  let (rs, i) ← if rs = [] then (do
      let rs := regionSet found
      let i ← check i rs
      .ok (rs, i))
    else if rs.all (found.contains ·) then .ok (rs, i) else .error "SystemExit"
  rs.mapM fun r => do
    let t ← get runtime r
    let l ← get i.loops r
    let n ← get i.repetitions r
    let f ← get i.flops r
    .ok ⟨r, l, n, f, t⟩

end Verif.Regions
