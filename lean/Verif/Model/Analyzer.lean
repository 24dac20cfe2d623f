import Verif.Model.UnitText

/-!
Model of the readers of external analysers (`kerncraft/incore_model.py`): `llvm_mca_analyse_instrumented_assembly` from the output
on (828-870) and `iaca_analyse_instrumented_binary` from the output on (921-952). Starting the programs is not modelled. Floats are
rational numbers; of the forms that `float` accepts, only digits with an optional fraction are modelled. Dictionaries are lists
of pairs in the order of insertion.
-/

namespace Verif.Analyzer

open Verif.Text Verif.Units

/-- `float(s)`; other forms than `12` and `1.5` count as errors. -/
def parseDec (s : List Char) : Option ℚ :=
  let a := s.takeWhile isDigit
  if a = [] then none
  else match s.dropWhile isDigit with
    | [] => some (natOf a)
    | '.' :: r => if r.all isDigit then some (natOf a + natOf r / 10 ^ r.length) else none
    | _ => none

/-- `re.search`: the first suffix that is accepted. -/
def searchWith {α : Type} (f : List Char → Option α) : List Char → Option α
  | [] => f []
  | c :: cs => match f (c :: cs) with
    | some x => some x
    | none => searchWith f cs

/-- `s.startswith(p)`, with the rest. -/
def after (p s : List Char) : Option (List Char) := if p.isPrefixOf s then some (s.drop p.length) else none

/-- `key\s+([0-9]+)` -/
def matchNumber (key s : List Char) : Option Nat :=
  match after key s with
  | none => none
  | some r =>
    let ds := (r.dropWhile isSpace).takeWhile isDigit
    if r.takeWhile isSpace = [] ∨ ds = [] then none else some (natOf ds)

/-- `int(re.search(…).group(1))` -/
def number (key : String) (s : List Char) : Except String Nat :=
  match searchWith (matchNumber key.toList) s with
  | some n => .ok n
  | none => .error "AttributeError"

/-! ### llvm-mca -/

/-- `[0-9\.]` -/
def isIdx (c : Char) : Bool := isDigit c || c == '.'

/-- `[a-zA-Z0-9]` -/
def isName (c : Char) : Bool := c.isLower || c.isUpper || isDigit c

/-- `(\[[0-9\.]+\])\s+-\s+([a-zA-Z0-9]+)` at the start: both groups and the length of the match. -/
def matchRes : List Char → Option (List Char × List Char × Nat)
  | '[' :: s => match s.dropWhile isIdx with
    | ']' :: r => match r.dropWhile isSpace with
      | '-' :: t =>
        let i := s.takeWhile isIdx
        let a := r.takeWhile isSpace
        let b := t.takeWhile isSpace
        let n := (t.dropWhile isSpace).takeWhile isName
        if i = [] ∨ a = [] ∨ b = [] ∨ n = [] then none
        else some ('[' :: i ++ [']'], n, i.length + a.length + b.length + n.length + 3)
      | _ => none
    | _ => none
  | _ => none

/-- `re.finditer`; the first argument counts characters of the last match. -/
def findRes : Nat → List Char → List (List Char × List Char)
  | _, [] => []
  | k + 1, _ :: cs => findRes k cs
  | 0, c :: cs => match matchRes (c :: cs) with
    | some (i, n, k) => (i, n) :: findRes (k - 1) cs
    | none => findRes 0 cs

/-- `Resources:\n(?:[^\n]+\n)+` at the start: the lines after the first one. -/
def matchSection (s : List Char) : Option (List Char) :=
  match after "Resources:\n".toList s with
  | none => none
  | some r =>
    let ls := (splitNl r).dropLast.takeWhile (· ≠ [])
    if ls = [] then none else some (ls.flatMap (· ++ ['\n']))

/-- `Resource pressure per iteration:\n[^\n]+\n[^\n]+` at the start: the two lines. -/
def matchPressure (s : List Char) : Option (List Char × List Char) :=
  match after "Resource pressure per iteration:\n".toList s with
  | none => none
  | some r => match splitNl r with
    | a :: b :: _ => if a = [] ∨ b = [] then none else some (a, b)
    | _ => none

/-- `d[k] = v` -/
def set {α : Type} (d : List (List Char × α)) (k : List Char) (v : α) : List (List Char × α) :=
  if d.any (fun e => e.1 == k) then d.map fun e => if e.1 = k then (k, v) else e else d ++ [(k, v)]

/-- Lines 837-847: one column. -/
def stepPort (names : List (List Char × List Char)) (d : List (List Char × ℚ)) (x : List Char × List Char) :
    Except String (List (List Char × ℚ)) :=
  match names.lookup x.1 with
  | none => .error "KeyError"
  | some n => match (if x.2 = ['-'] then some 0 else parseDec x.2) with
    | none => .error "ValueError"
    | some v => match d.lookup n with
      | some w => .ok (set d n (max v w))
      | none => .ok (set d n v)

/-- Line 858: `\[[0-9]+,[0-9]+\]` at the start. -/
def isRow : List Char → Bool
  | '[' :: s => match s.dropWhile isDigit with
    | ',' :: r => match r.dropWhile isDigit with
      | ']' :: _ => s.takeWhile isDigit ≠ [] && r.takeWhile isDigit ≠ []
      | _ => false
    | _ => false
  | _ => false

/-- `l.index(c)` -/
def indexOf (c : Char) (l : List Char) : Except String Nat :=
  if c ∈ l then .ok (l.takeWhile (· ≠ c)).length else .error "ValueError"

/-- Lines 861-864: one row of the timeline; `none` stands for `inf`. -/
def stepRow (acc : Option Nat × Nat) (l : List Char) : Except String (Option Nat × Nat) :=
  if "[0,".toList.isPrefixOf l then do
    let d ← indexOf 'D' l
    let r ← indexOf 'R' l
    .ok (some (match acc.1 with | some s => min d s | none => d), max r acc.2)
  else .ok acc

/-- Result of the analysis; the latency `none` stands for `-inf`. -/
structure Mca where
  portCycles : List (List Char × ℚ)
  lcd : ℚ
  throughput : ℚ
  cpLatency : Option Int
  uops : ℚ

/-- Lines 828-870 -/
def mca (s : List Char) : Except String Mca := do
  let sec ← match searchWith matchSection s with
    | some x => .ok x
    | none => .error "AttributeError"
  let names := (findRes 0 sec).foldl (fun d e => set d e.1 e.2) []
  let (a, b) ← match searchWith matchPressure s with
    | some x => .ok x
    | none => .error "AttributeError"
  let ports ← ((words a).zip (words b)).foldlM (stepPort names) []
  let cycles ← number "Total Cycles:" s
  let iterations ← number "Iterations:" s
  if iterations = 0 then .error "ZeroDivisionError"
  else
    let cp ← ((splitNl s).filter isRow).foldlM stepRow (none, 0)
    let uops ← number "Total uOps:" s
    .ok ⟨ports, cycles / iterations, cycles / iterations, cp.1.map fun d : Nat => (cp.2 : Int) - d, uops / iterations⟩

/-! ### IACA -/

/-- `s.split(c)` -/
def splitOn (c : Char) : List Char → List (List Char)
  | [] => [[]]
  | x :: xs =>
    if x = c then [] :: splitOn c xs
    else match splitOn c xs with
      | l :: ls => (x :: l) :: ls
      | [] => [[x]]

/-- Lines 930-931 and 933-934: the cells of the first line with this beginning. -/
def cells (head : List Char) (s : List Char) : Except String (List (List Char)) :=
  match (splitNl s).find? (fun l => head.isPrefixOf l) with
  | none => .error "AssertionError"
  | some l => .ok (((splitOn '|' l).map strip).drop 2)

/-- `float(s)` -/
def float (s : List Char) : Except String ℚ :=
  match parseDec s with
  | some v => .ok v
  | none => .error "ValueError"

/-- `l[i]` -/
def item {α : Type} (l : List α) (i : Nat) : Except String α :=
  match l[i]? with
  | some x => .ok x
  | none => .error "IndexError"

/-- Lines 937-944: one port; the cycles may be missing. -/
def stepCell (acc : List (List Char × ℚ)) (x : List Char × Option (List Char)) : Except String (List (List Char × ℚ)) :=
  match x.2 with
  | none => if '-' ∈ x.1 ∨ x.1 ≠ [] then .error "IndexError" else .ok acc
  | some c =>
    if '-' ∈ x.1 ∧ ' ' ∈ c then do
      let ps := (splitOn '-' x.1).map strip
      let cs := (splitOn ' ' c).filter (· ≠ [])
      let p ← item ps 0
      let v ← item cs 0
      let v ← float v
      let q ← item ps 1
      let w ← item cs 1
      let w ← float w
      .ok (acc ++ [(p, v), (p ++ q, w)])
    else if x.1 ≠ [] ∧ c ≠ [] then do
      let v ← float c
      .ok (acc ++ [(x.1, v)])
    else .ok acc

/-- Lines 930-945: `port cycles`. -/
def iacaPorts (s : List Char) : Except String (List (List Char × ℚ)) := do
  let ports ← cells "|  Port  |".toList s
  let cycles ← cells "| Cycles |".toList s
  let l ← ((List.range ports.length).map fun i => (ports.getD i [], cycles[i]?)).foldlM stepCell []
  .ok (l.foldl (fun d e => set d e.1 e.2) [])

/-- `Block Throughput: ([0-9.]+) Cycles` -/
def matchThroughput (l : List Char) : Option (List Char) :=
  match after "Block Throughput: ".toList l with
  | none => none
  | some r =>
    let d := r.takeWhile isIdx
    if d = [] ∨ " Cycles".toList.isPrefixOf (r.dropWhile isIdx) = false then none else some d

/-- `Total Num Of Uops: ([0-9]+)` -/
def matchUops (l : List Char) : Option Nat :=
  match after "Total Num Of Uops: ".toList l with
  | none => none
  | some r =>
    let d := r.takeWhile isDigit
    if d = [] then none else some (natOf d)

/-- Result of the analysis. -/
structure Iaca where
  throughput : ℚ
  portCycles : List (List Char × ℚ)
  uops : ℚ

/-- Lines 921-952. Patterns that begin with `^` are tried at the beginning of each line, and contain no line break. -/
def iaca (s : List Char) : Except String Iaca := do
  let t ← match (splitNl s).findSome? matchThroughput with
    | some d => float d
    | none => .error "AssertionError"
  let ports ← iacaPorts s
  let uops ← match (splitNl s).findSome? matchUops with
    | some n => .ok n
    | none => .error "AssertionError"
  .ok ⟨t, ports, uops⟩

end Verif.Analyzer
