import Verif.Spec.PhenoArgs

/-!
The output of `likwid-perfctr -O`: lines with columns that are separated by commas.
-/

namespace Verif.PerfSpec

open Verif.Text Verif.PhenoArgs

/-- A column. -/
def Column (s : List Char) : Prop := ',' ∉ s ∧ '\n' ∉ s

/-- Nothing, or further columns. -/
def Rest (s : List Char) : Prop := '\n' ∉ s ∧ (s = [] ∨ ∃ r, s = ',' :: r)

/-- A character that is in no number: no digit, sign, point, underscore, blank or letter of `e`, `nan` and `infinity`. -/
def NoNumber (c : Char) : Prop :=
  isDigit c = false ∧ isSpace c = false ∧ c ∉ ['+', '-', '.', '_'] ∧ c.toLower ∉ "enaifty".toList

/-- Names of events have capital letters, digits and underscores. -/
def EventName (s : List Char) : Prop := s ≠ [] ∧ ∀ c ∈ s, c.isUpper = true ∨ isDigit c = true ∨ c = '_'

/-- Options of counters have a value, such as `STATE=0x3F`. -/
def Option' (s : List Char) : Prop :=
  ∃ k v, s = k ++ '=' :: v ∧ k ≠ [] ∧ v ≠ [] ∧ (∀ c ∈ k, c.isUpper = true ∨ isDigit c = true) ∧
    ∀ c ∈ v, isDigit c = true ∨ c = 'x' ∨ c ∈ "abcdefABCDEF".toList

/-- A counter such as `PMC0`, perhaps with options. -/
def Counter (s : List Char) : Prop :=
  ∃ (r : List Char) (os : List (List Char)), s = r ++ os.flatMap (':' :: ·) ∧ (∀ c ∈ r, c.isUpper = true ∨ isDigit c = true) ∧ (∃ c ∈ r, NoNumber c) ∧ ∀ o ∈ os, Option' o

/-- What a line says: a metric, the counts of an event on the cores, something about the processor, or nothing of interest. -/
inductive Line where
  | metric (name : List Char) (x : ℚ)
  | event (name counter : List Char) (count : Nat) (others : List Nat)
  | info (name text : List Char)
  | other

/-- The text of a line. -/
inductive Line.Is : Line → List Char → Prop
  | metric (name x t rest) (h : Column name) (hx : Float x t) (hr : Rest rest) : Line.Is (.metric name x) (name ++ ',' :: t ++ rest)
  | event (name counter n ns rest) (h : EventName name) (hc : Counter counter) (hr : Rest rest) :
      Line.Is (.event name counter n ns) (name ++ ',' :: counter ++ ',' :: showNat n ++ (ns.flatMap fun n => ',' :: showNat n) ++ rest)
  | info (name text) (h : Column name) (hn : name.getLast? = some ':') (ht : Column text) (hx : ∃ c ∈ text, NoNumber c) :
      Line.Is (.info name text) (name ++ ',' :: text ++ [','])
  | single (s) (h : Column s) : Line.Is .other s
  | head (a b rest) (ha : Column a) (hn : a.getLast? ≠ some ':') (hb : Column b) (hx : ∃ c ∈ b, NoNumber c)
      (hc : ∃ c ∈ b, c = ' ' ∨ c ∈ "ghijklmnopqrstuvwyz".toList) (hr : Rest rest) : Line.Is .other (a ++ ',' :: b ++ rest)

/-- The output has these lines. -/
def Output (ds : List Line) (out : List Char) : Prop := ∃ ls, List.Forall₂ Line.Is ds ls ∧ splitNl out = ls

end Verif.PerfSpec
