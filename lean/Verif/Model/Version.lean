import Verif.Model.UnitText

/-!
Model of the check of the version of a machine file (`kerncraft/machinemodel.py:26-76`, `170-183`), and of `LooseVersion` of Python's
`distutils`, which it uses: versions are split into numbers and words, and compared as lists. Only the digits 0 to 9 are digits here, while
Python knows others.
-/

namespace Verif.Version

open Verif.Text Verif.Units

/-- Components of versions. -/
inductive Comp where
  | num (n : Nat)
  | word (s : List Char)
deriving DecidableEq

/-- `[a-z]` -/
def isLow (c : Char) : Bool := decide ('a' ≤ c) && decide (c ≤ 'z')

/-- Neither part of a number nor of a word nor a point. -/
def isRest (c : Char) : Bool := !isDigit c && !isLow c && c != '.'

/-- `LooseVersion.parse`: `re.split(r'(\d+|[a-z]+|\.)', s)` without points and empty texts, and with numbers. Each step takes at least one
character, the first argument is at least the length. -/
def split : Nat → List Char → List Comp
  | 0, _ => []
  | _ + 1, [] => []
  | n + 1, c :: cs =>
    if c = '.' then split n cs
    else if isDigit c then .num (natOf ((c :: cs).takeWhile isDigit)) :: split n ((c :: cs).dropWhile isDigit)
    else if isLow c then .word ((c :: cs).takeWhile isLow) :: split n ((c :: cs).dropWhile isLow)
    else .word ((c :: cs).takeWhile isRest) :: split n ((c :: cs).dropWhile isRest)

def parse (s : List Char) : List Comp := split s.length s

/-- Comparison of lists: the first components that differ, or the lengths. Numbers and words cannot be compared. -/
def cmp : List Comp → List Comp → Except String Ordering
  | [], [] => .ok .eq
  | [], _ :: _ => .ok .lt
  | _ :: _, [] => .ok .gt
  | x :: xs, y :: ys =>
    if x = y then cmp xs ys
    else match x, y with
      | .num a, .num b => .ok (if a < b then .lt else .gt)
      | .word a, .word b => .ok (if a < b then .lt else .gt)
      | _, _ => .error "TypeError"

/-- Line 26 -/
def minSupported : List Char := "0.8.3.dev0".toList

/-- `kerncraft/__init__.py:2` -/
def current : List Char := "0.8.17".toList

/-- Lines 28-76: the versions with changes. -/
def changes : List (List Char) :=
  ["0.6.6".toList, "0.7.1".toList, "0.8.1.dev0".toList, "0.8.3.dev0".toList, "0.8.3.dev1".toList, "0.8.6.dev0".toList, "0.8.11.dev0".toList]

/-- Lines 170-183: acceptance of the version of a machine file. The changes since then are printed before it is rejected. The text is not empty. -/
def check (s : List Char) : Except String PUnit := do
  let low ← cmp (parse minSupported) (parse s)
  let inside ← if low = .gt then .ok false else do
    let high ← cmp (parse s) (parse current)
    .ok (decide (high ≠ .gt))
  if inside then .ok ()
  else do
    let _ ← changes.mapM fun c => cmp (parse c) (parse s)
    .error "ValueError"

end Verif.Version
