import Verif.Model.Text

/-!
The output of `likwid-topology`, as far as it is read.
-/

namespace Verif.Likwid

open Verif.Text

/-- A cache: its level, size as text, and the text of each group of threads that share it. -/
structure Cache where
  level : Nat
  size : List Char
  groups : List (List Char)

/-- White space within a line. -/
def Blanks (w : List Char) : Prop := ∀ c ∈ w, c = ' ' ∨ c = '\t'

/-- The first position of a text is `i`. -/
def First (p s : List Char) (i : Nat) : Prop := p <+: s.drop i ∧ ∀ j < i, ¬ p <+: s.drop j

/-- Any other line. -/
def Other (l : List Char) : Prop :=
  '\n' ∉ l ∧ ¬ "Level:".toList <+: l ∧ ¬ "Size:".toList <+: l ∧ ¬ "Cache groups:".toList <+: l

/-- `Level:   1` -/
def LevelLine (n : Nat) (l : List Char) : Prop :=
  ∃ a b, Blanks a ∧ Blanks b ∧ l = "Level:".toList ++ a ++ showNat n ++ b

/-- `Size:   32 kB` -/
def SizeLine (t l : List Char) : Prop :=
  ∃ a b, Blanks a ∧ Blanks b ∧ t ≠ [] ∧ (∀ c ∈ t.head?, isSpace c = false) ∧ (∀ c ∈ t.getLast?, isSpace c = false) ∧
    ':' ∉ t ∧ '\n' ∉ t ∧ l = "Size:".toList ++ a ++ t ++ b

/-- `Cache groups:   ( 0 4 ) ( 1 5 )` -/
def GroupsLine (gs : List (List Char)) (l : List Char) : Prop :=
  ∃ a, Blanks a ∧ (∀ g ∈ gs, '(' ∉ g ∧ '\n' ∉ g) ∧ l = "Cache groups:".toList ++ a ++ gs.flatMap fun g => '(' :: g ++ [')', ' ']

/-- Lines that describe caches. -/
inductive Describes : List (List Char) → List Cache → Prop
  | nil : Describes [] []
  | other (l ls cs) (ho : Other l) (h : Describes ls cs) : Describes (l :: ls) cs
  | cache (c : Cache) (l1 o1 l2 o2 l3 ls cs) (h1 : LevelLine c.level l1) (g1 : ∀ o ∈ o1, Other o) (h2 : SizeLine c.size l2)
      (g2 : ∀ o ∈ o2, Other o) (h3 : GroupsLine c.groups l3) (h : Describes ls cs) :
      Describes (l1 :: o1 ++ l2 :: o2 ++ l3 :: ls) (c :: cs)

/-- The lines of the section on caches. -/
def Caches (s : List Char) (lines : List (List Char)) : Prop :=
  ∃ i j, First "Cache Topology".toList s i ∧ First "NUMA Topology".toList s j ∧ (s.take j).drop i = joinNl lines ∧ lines ≠ []

/-- The text has a line `key   n`, and no earlier line starts with the key. -/
def HasField (key : List Char) (n : Nat) (s : List Char) : Prop :=
  ∃ pre a b post, Blanks a ∧ a ≠ [] ∧ Blanks b ∧ s = pre ++ key ++ a ++ showNat n ++ b ++ post ∧ (post = [] ∨ post.head? = some '\n') ∧
    (pre = [] ∨ pre.getLast? = some '\n') ∧ ∀ l ∈ splitNl pre, ¬ key <+: l

end Verif.Likwid
