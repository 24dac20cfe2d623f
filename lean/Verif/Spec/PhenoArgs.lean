import Verif.Spec.BenchRun

/-!
Arguments of the stand-alone benchmark as the documentation describes them.
-/

namespace Verif.PhenoArgs

open Verif.Text Verif.BenchSpec

/-- Letters, digits and underscores. -/
def WordChar (c : Char) : Prop := c.isLower = true ∨ c.isUpper = true ∨ isDigit c = true ∨ c = '_'

instance (c : Char) : Decidable (WordChar c) := by unfold WordChar; infer_instance

/-- The name of a region: an identifier. -/
def Name (n : List Char) : Prop := ∃ c w, n = c :: w ∧ isDigit c = false ∧ WordChar c ∧ ∀ x ∈ w, WordChar x

/-- `a,b:` -/
def regionText : List (List Char) → List Char
  | [] => []
  | [n] => n ++ [':']
  | n :: m :: ns => n ++ ',' :: regionText (m :: ns)

/-- The regions that are meant: without names all of them, with the empty text as key. -/
def regionsOf (ns : List (List Char)) : List (List Char) := if ns = [] then [[]] else ns

/-- `[[...,]region:]start:[step:]end[:variable]` -/
structure Loop where
  regions : List (List Char)
  start : Nat
  step : Option Nat
  stop : Nat
  var : Option (List Char)

/-- Regions are names, the variable does not begin with a digit and has no blanks. -/
structure Loop.Plain (l : Loop) : Prop where
  names : ∀ n ∈ l.regions, Name n
  var : ∀ v ∈ l.var, ∃ c w, v = c :: w ∧ isDigit c = false ∧ ∀ x ∈ w, isSpace x = false

/-- `step:` -/
def stepText : Option Nat → List Char
  | some b => showNat b ++ [':']
  | none => []

/-- `:variable` -/
def varText : Option (List Char) → List Char
  | some v => ':' :: v
  | none => []

/-- The argument. -/
def Loop.text (l : Loop) : List Char :=
  regionText l.regions ++ showNat l.start ++ ':' :: stepText l.step ++ showNat l.stop ++ varText l.var

/-- A number, perhaps with an exponent. -/
def Float (x : ℚ) (t : List Char) : Prop :=
  Number x t ∨ ∃ y u c g k, Number y u ∧ (c = 'e' ∨ c = 'E') ∧
    ((g = [] ∨ g = ['+']) ∧ x = y * 10 ^ k ∨ g = ['-'] ∧ x = y / 10 ^ k) ∧ t = u ++ c :: g ++ showNat k

/-- `[[...,]region:]start[:stop[:scale]]` -/
inductive Def : List (List Char) → ℚ → Option (ℚ × Option (List Char)) → List Char → Prop
  | fixed (ns a t) (hn : ∀ n ∈ ns, Name n) (ha : Float a t) : Def ns a none (regionText ns ++ t)
  | range (ns a t b u) (hn : ∀ n ∈ ns, Name n) (ha : Float a t) (hb : Float b u) :
      Def ns a (some (b, none)) (regionText ns ++ t ++ ':' :: u)
  | scaled (ns a t b u v) (hn : ∀ n ∈ ns, Name n) (ha : Float a t) (hb : Float b u) (hv : v = "log".toList ∨ v = "lin".toList) :
      Def ns a (some (b, some v)) (regionText ns ++ t ++ ':' :: u ++ ':' :: v)

end Verif.PhenoArgs
