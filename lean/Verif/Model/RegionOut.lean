import Verif.Model.PerfOut

/-!
Reading of the output of `likwid-perfctr` with regions, by the stand-alone benchmark (`models/standalone_benchmark.py:119-164`). The following check of
the clock is in `Guard`.
-/

namespace Verif.RegionOut

open Verif.Text Verif.Analyzer Verif.PerfOut

/-- The current region, the regions seen (`self.benchmarked_regions`, which lasts over several runs) and `results`. -/
structure State where
  current : List Char := []
  seen : List (List Char)
  results : List (List Char × List (List Char × Entry)) := []

/-- `results[region]` of a `defaultdict(dict)` -/
def State.get (s : State) (region : List Char) : List (List Char × Entry) := (s.results.lookup region).getD []

/-- `results[region][key] = value` -/
def State.put (s : State) (region key : List Char) (v : Entry) : State :=
  { s with results := set s.results region (set (s.get region) key v) }

/-- Line 147: `[A-Z0-9]+` for the whole text. -/
def isPlain (s : List Char) : Bool := !s.isEmpty && s.all isCap

/-- `text.startswith("Region ")` and the rest of the text (lines 125-127). -/
def regionName (v : List Char) : Option (List Char) :=
  if "Region ".toList.isPrefixOf v then some (v.drop 7) else none

/-- Lines 125-128 -/
def enter (s : State) (k v : List Char) : State :=
  if k = "TABLE".toList then
    match regionName v with
    | some r => { s with current := r, seen := if r ∈ s.seen then s.seen else s.seen ++ [r] }
    | none => s
  else s

/-- Lines 154-160; `none` (line 155) is not distinguished from a text. -/
def stepInfo (s : State) (k v : List Char) (rest : List (List Char)) : State :=
  let s := if k = "call count".toList then s.put s.current k (.text (if s.current ≠ [] then v else "None".toList)) else s
  if k.getLast? = some ':' ∧ rest = [[]] then s.put [] k (.text v) else s

/-- Lines 122-160: one line. -/
def step (s : State) (line : List Char) : Except String State :=
  match splitOn ',' line with
  | k :: v :: rest =>
    let s := enter s k v
    match pyFloat v with
    | some x => .ok (s.put s.current k (.num x))
    | none => match rest.head?.bind countOf with
      | some n =>
        if isEvent k && isPlain v then
          match (s.get s.current).lookup k with
          | none => .ok (s.put s.current k (.counters [(v, n)]))
          | some (.counters c) => .ok (s.put s.current k (.counters (set c v n)))
          | some _ => .error "TypeError"
        else .ok (stepInfo s k v rest)
      | none => .ok (stepInfo s k v rest)
  | [k] => if k = "TABLE".toList then .error "IndexError" else .ok s
  | [] => .ok s

/-- Lines 119-164 -/
def read (seen : List (List Char)) (out : List Char) : Except String State :=
  match (splitNl out).foldlM step { seen := seen } with
  | .error e => .error e
  | .ok s => .ok (if s.seen.isEmpty then { s with seen := [[]] } else s)

end Verif.RegionOut
