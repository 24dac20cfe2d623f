import Verif.Model.Clean
import Verif.Model.UnitText

/-!
Model of the readout of a machine from the output of `likwid-topology` (`kerncraft/machinemodel.py`): numbers in
`get_machine_readouts` (680-707) and `get_memory_hierarchy` (709-788). The processor names, the clock, the setting of huge pages and
placeholder texts are not modelled. Each dictionary of a level is a record; keys that are not set are `none`.
-/

namespace Verif.Topology

open Verif.Text Verif.Clean

/-! ### Numbers -/

/-- `key\s+([0-9]+)\s*$` at the start of the text, with `$` also before a line break. -/
def matchField (key s : List Char) : Option Nat :=
  if startsWith key s then
    let r := s.drop key.length
    let r1 := r.dropWhile isSpace
    let ds := r1.takeWhile isDigit
    let r2 := r1.dropWhile isDigit
    if r.takeWhile isSpace ≠ [] ∧ ds ≠ [] ∧ (r2.dropWhile isSpace = [] ∨ '\n' ∈ r2.takeWhile isSpace)
    then parseDigits 0 false ds else none
  else none

/-- `re.search('^…', s, re.MULTILINE)`; the flag tells if the position is the beginning of a line. -/
def search {α : Type} (m : List Char → Option α) : Bool → List Char → Option α
  | b, [] => if b then m [] else none
  | b, c :: cs => match (if b then m (c :: cs) else none) with
    | some r => some r
    | none => search m (c == '\n') cs

/-- Lines 630-634 `get_match_or_break` -/
def field (key : String) (s : List Char) : Except String Nat :=
  match search (matchField key.toList) true s with
  | some n => .ok n
  | none => .error "ValueError"

/-- Numbers of `get_machine_readouts`. -/
structure Readouts where
  threadsPerCore : Nat
  sockets : Nat
  coresPerSocket : Nat
  numaPerSocket : Nat
  coresPerNuma : Nat
deriving DecidableEq

/-- Lines 689-699 -/
def readouts (s : List Char) : Except String Readouts := do
  let t ← field "Threads per core:" s
  let k ← field "Sockets:" s
  let c ← field "Cores per socket:" s
  let d ← field "NUMA domains:" s
  if k = 0 then .error "ZeroDivisionError"
  else
    let n := if d / k = 0 then 1 else d / k
    .ok ⟨t, k, c, n, c / n⟩

/-! ### Levels -/

/-- An entry of the memory hierarchy. -/
structure Level where
  name : List Char
  loadFrom : Option (List Char) := none
  storeTo : Option (List Char) := none
  size : Option Units.Parsed := none
  groups : Option Nat := none
  coresPerGroup : Option Nat := none
  threadsPerGroup : Option Nat := none
deriving DecidableEq

/-- `s.find(p)` -/
def find (p : List Char) : List Char → Int
  | [] => if p = [] then 0 else -1
  | c :: cs => if startsWith p (c :: cs) then 0 else match find p cs with
    | -1 => -1
    | i => i + 1

/-- `line.split(':')[1].strip()` of a line with a colon. -/
def value (line : List Char) : List Char := strip (((line.dropWhile (· ≠ ':')).drop 1).takeWhile (· ≠ ':'))

/-- Changes the last level, which is `mem_level`; without any level the change is lost. -/
def onLast (f : Level → Level) : List Level → List Level
  | [] => []
  | [l] => [f l]
  | l :: ls => l :: onLast f ls

/-- Lines 727-767: one line of the text. -/
def step (placeholders : Bool) (r : Readouts) (ls : List Level) (line : List Char) : Except String (List Level) :=
  if startsWith "Level:".toList line then .ok (ls ++ [{ name := 'L' :: value line }])
  else if startsWith "Size:".toList line then
    match Units.read (value line) with
    | .error e => .error e
    | .ok size =>
      match ls.getLast? with
      | none => .error "KeyError"
      | some l =>
        if !placeholders then .error "KeyError"
        else match parseInt (l.name.drop 1) with
          | none => .error "ValueError"
          | some k =>
            let next := 'L' :: showInt (k + 1)
            .ok (onLast (fun l => { l with loadFrom := some next, storeTo := some next, size := some size }) ls)
  else if startsWith "Cache groups:".toList line then
    let g := line.count '('
    if g = 0 then .error "ZeroDivisionError"
    else
      let c := r.coresPerSocket * r.sockets / g
      .ok (onLast (fun l => { l with groups := some g, coresPerGroup := some c, threadsPerGroup := some (c * r.threadsPerCore) }) ls)
  else .ok ls

/-- Lines 769-787: the last cache and the main memory. -/
def finish (r : Readouts) (ls : List Level) : Except String (List Level) :=
  match ls.getLast? with
  | none => .error "IndexError"
  | some l => if l.loadFrom = none then .error "KeyError" else
    .ok (onLast (fun l => { l with loadFrom := none, storeTo := none }) ls ++
      [{ name := "MEM".toList, coresPerGroup := some r.coresPerSocket, threadsPerGroup := some (r.threadsPerCore * r.coresPerSocket) }])

/-- Lines 709-788 `get_memory_hierarchy` -/
def hierarchy (placeholders : Bool) (s : List Char) : Except String (List Level) := do
  let r ← readouts s
  let lines := splitNl (slice s (find "Cache Topology".toList s) (find "NUMA Topology".toList s))
  let ls ← lines.foldlM (step placeholders r) []
  finish r ls

end Verif.Topology
