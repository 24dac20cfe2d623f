import Mathlib.Data.List.Basic

/-!
Which intermediate files are reused (`kernel.py:799-808` `_check_freshness`, `machinemodel.py:411-417` and `kerncraft.py:74-85` `get_last_modified_datetime`).
In contrast to `PredCache`, the inputs are read at other times than results are written, and files have time stamps of their own. Times are in microseconds
since 1970 (UTC), to which `utcfromtimestamp` rounds. Files are not deleted.
-/

namespace Verif.Freshness

/-- A version of a file: from when on it is there, its time stamp and its content. -/
structure Version (α : Type) where
  since : Int
  stamp : Int
  content : α
deriving DecidableEq, Repr

/-- The versions of a file, the oldest first. -/
abbrev History (α : Type) := List (Version α)

/-- What the file is at a time. -/
def History.current {α : Type} (h : History α) (τ : Int) : Option (Version α) := (h.filter fun v => decide (v.since ≤ τ)).getLast?

/-- `machinemodel.py:411-417`: without a file, `datetime.now()` is the local time, which differs by `zone` from UTC. -/
def machineStamp {M : Type} (machine : Option (History M)) (zone τ : Int) : Except String Int :=
  match machine with
  | some h => match h.current τ with
    | some v => .ok v.stamp
    | none => .error "FileNotFoundError"
  | none => .ok (τ + zone)

/-- `kerncraft.py:74-85`: the latest time stamp of all files of kerncraft. The result of the first call, at the time `first`, is kept by `lru_cache`. -/
def packageStamp {V : Type} (package : List (History V)) (first : Int) : Int :=
  package.foldl (fun m h => match h.current first with
    | some v => max m v.stamp
    | none => m) 0

/-- `kernel.py:799-808`, for a file with a time stamp and content or none. Python evaluates the conditions from left to right. -/
def check {M V K R : Type} (file : Option (Int × R)) (machine : Option (History M)) (zone : Int) (package : List (History V)) (first : Int) (code : History K)
    (τ : Int) : Except String Bool :=
  match file with
  | none => .ok false
  | some f =>
    match machineStamp machine zone τ with
    | .error e => .error e
    | .ok m =>
      if ¬ m < f.1 then .ok false
      else if ¬ packageStamp package first < f.1 then .ok false
      else match code.current τ with
        | none => .error "FileNotFoundError"
        | some v => .ok (decide (v.stamp < f.1))

end Verif.Freshness
