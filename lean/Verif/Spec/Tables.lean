import Verif.Spec.Likwid
import Mathlib.Data.Rat.Defs

/-!
Outputs of the analysers that are read: resources, pressure and timeline of `llvm-mca`, the table of ports of IACA.
-/

namespace Verif.Tables

open Verif.Text Verif.Likwid

/-! ### Numbers and words -/

/-- A decimal number with its digits behind the point. -/
structure Dec where
  whole : Nat
  frac : List Nat
  small : ∀ d ∈ frac, d < 10

/-- `12.50` -/
def Dec.text (d : Dec) : List Char := showNat d.whole ++ '.' :: d.frac.map digitChar

/-- The value of the number. -/
def Dec.value (d : Dec) : ℚ := d.whole + ((Nat.ofDigits 10 d.frac.reverse : Nat) : ℚ) / 10 ^ d.frac.length

/-- A cell: a number, or `-` for none. -/
def cellText : Option Dec → List Char
  | some d => d.text
  | none => ['-']

/-- The value of a cell. -/
def cellValue : Option Dec → ℚ
  | some d => d.value
  | none => 0

/-- Words with blanks between them. -/
inductive Spaced : List (List Char) → List Char → Prop
  | nil (a) (ha : Blanks a) : Spaced [] a
  | cons (a w ws rest) (ha : Blanks a) (hw : w ≠ []) (hs : ∀ c ∈ w, isSpace c = false) (h : Spaced ws rest)
      (hr : rest = [] ∨ rest.head? = some ' ') : Spaced (w :: ws) (a ++ w ++ rest)

/-- The first occurrence of the key is followed by a number. -/
def HasNumber (key : List Char) (n : Nat) (s : List Char) : Prop :=
  ∃ i a post, Blanks a ∧ a ≠ [] ∧ (∀ c ∈ post.head?, isDigit c = false) ∧ First key s i ∧ s.drop i = key ++ a ++ showNat n ++ post

/-! ### llvm-mca -/

/-- A resource: index and name. -/
structure Resource where
  index : List Char
  name : List Char

/-- Indices are numbers such as `6` or `6.1`, names have letters and digits. -/
structure Resource.Plain (r : Resource) : Prop where
  index_ne : r.index ≠ []
  index : ∀ c ∈ r.index, isDigit c = true ∨ c = '.'
  name_ne : r.name ≠ []
  name : ∀ c ∈ r.name, c.isLower = true ∨ c.isUpper = true ∨ isDigit c = true

/-- `[6.1]` -/
def Resource.key (r : Resource) : List Char := '[' :: r.index ++ [']']

/-- `[6.1] - Port23` -/
def ResourceLine (r : Resource) (l : List Char) : Prop :=
  ∃ a b c, Blanks a ∧ a ≠ [] ∧ Blanks b ∧ b ≠ [] ∧ Blanks c ∧ l = r.key ++ a ++ ['-'] ++ b ++ r.name ++ c

/-- The section on resources ends with an empty line. -/
def Resources (rs : List Resource) (s : List Char) : Prop :=
  ∃ i ls post, First "Resources:\n".toList s i ∧ List.Forall₂ ResourceLine rs ls ∧
    s.drop i = "Resources:\n".toList ++ ls.flatMap (· ++ ['\n']) ++ '\n' :: post

/-- The section on the pressure: indices, and a number for each of them. -/
def Pressure (cols : List (Resource × Option Dec)) (s : List Char) : Prop :=
  ∃ i a b post, First "Resource pressure per iteration:\n".toList s i ∧ Spaced (cols.map (·.1.key)) a ∧
    Spaced (cols.map fun c => cellText c.2) b ∧ '\n' ∉ a ∧ '\n' ∉ b ∧
    s.drop i = "Resource pressure per iteration:\n".toList ++ a ++ '\n' :: b ++ '\n' :: post

/-- A row of the first iteration: the instruction is dispatched in column `d` and retired in column `r`. -/
def Row (d r : Nat) (l : List Char) : Prop :=
  ∃ k pad mid tail, (∀ c ∈ pad, c = ' ' ∨ c = '.') ∧ (∀ c ∈ mid, c = 'e' ∨ c = 'E' ∨ c = '=' ∨ c = '-') ∧
    l = "[0,".toList ++ showNat k ++ [']'] ++ pad ++ 'D' :: mid ++ 'R' :: tail ∧
    d = ("[0,".toList ++ showNat k ++ [']'] ++ pad).length ∧ r = d + 1 + mid.length

/-- The rows of the first iteration, among other lines. -/
inductive Timeline : List (List Char) → List (Nat × Nat) → Prop
  | nil : Timeline [] []
  | other (l ls rows) (ho : ¬ "[0,".toList <+: l) (h : Timeline ls rows) : Timeline (l :: ls) rows
  | row (d r l ls rows) (hr : Row d r l) (h : Timeline ls rows) : Timeline (l :: ls) ((d, r) :: rows)

/-! ### IACA -/

/-- A port with its cycles; some have a second unit. -/
inductive Port where
  | one (name : List Char) (cycles : Dec)
  | two (name sub : List Char) (cycles subCycles : Dec)

/-- Units and cycles: the second unit is named after the port. -/
def Port.units : Port → List (List Char × ℚ)
  | .one n c => [(n, c.value)]
  | .two n s c d => [(n, c.value), (n ++ s, d.value)]

/-- Names are words without bars and dashes. -/
def Word (w : List Char) : Prop := w ≠ [] ∧ ∀ c ∈ w, isSpace c = false ∧ c ≠ '|' ∧ c ≠ '-'

/-- Names of a port. -/
def Port.Plain : Port → Prop
  | .one n _ => Word n
  | .two n s _ _ => Word n ∧ Word s

/-- The cell of the port: `0 - DV`. -/
def Port.Head : Port → List Char → Prop
  | .one n _, t => ∃ a b, Blanks a ∧ Blanks b ∧ t = a ++ n ++ b
  | .two n s _ _, t => ∃ a b c d, Blanks a ∧ Blanks b ∧ Blanks c ∧ Blanks d ∧ t = a ++ n ++ b ++ ['-'] ++ c ++ s ++ d

/-- Blanks only. -/
def Spaces (w : List Char) : Prop := ∀ c ∈ w, c = ' '

/-- The cell of the cycles: `1.0    0.0`. -/
def Port.Cycles : Port → List Char → Prop
  | .one _ c, t => ∃ a b, Blanks a ∧ Blanks b ∧ t = a ++ c.text ++ b
  | .two _ _ c d, t => ∃ a b e, Blanks a ∧ Spaces b ∧ b ≠ [] ∧ Blanks e ∧ t = a ++ c.text ++ b ++ d.text ++ e

/-- The first line with this beginning. -/
def FirstLine (head l s : List Char) : Prop :=
  ∃ i : Nat, (splitNl s)[i]? = some l ∧ head <+: l ∧ ∀ j < i, ∀ x, (splitNl s)[j]? = some x → ¬ head <+: x

/-- The first line with this beginning has these cells behind it, and a bar behind each of them. -/
def Line (head : List Char) (cells : List (List Char)) (s : List Char) : Prop :=
  FirstLine head (head ++ cells.flatMap (· ++ ['|'])) s

/-- The table of ports. -/
def PortTable (ps : List Port) (s : List Char) : Prop :=
  ∃ hs cs, List.Forall₂ Port.Head ps hs ∧ List.Forall₂ Port.Cycles ps cs ∧ Line "|  Port  |".toList hs s ∧
    Line "| Cycles |".toList cs s

/-- `Block Throughput: 1.50 Cycles` -/
def Throughput (d : Dec) (s : List Char) : Prop :=
  ∃ rest, FirstLine "Block Throughput: ".toList ("Block Throughput: ".toList ++ d.text ++ " Cycles".toList ++ rest) s

/-- `Total Num Of Uops: 12` -/
def Uops (n : Nat) (s : List Char) : Prop :=
  ∃ rest, (∀ c ∈ rest.head?, isDigit c = false) ∧
    FirstLine "Total Num Of Uops: ".toList ("Total Num Of Uops: ".toList ++ showNat n ++ rest) s

end Verif.Tables
