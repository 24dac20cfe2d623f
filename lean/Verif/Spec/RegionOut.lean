import Verif.Spec.PerfOut

/-!
The output of `likwid-perfctr -O -m`: a table of a region begins with its name.
-/

namespace Verif.RegionSpec

open Verif.Text Verif.PerfSpec

/-- The begin of a table of a region, or any other line. -/
inductive RLine where
  | region (name : List Char)
  | line (l : Line)

/-- The text of a line. -/
inductive RLine.Is : RLine → List Char → Prop
  | region (name rest) (h : Column name) (hr : Rest rest) : RLine.Is (.region name) ("TABLE,Region ".toList ++ name ++ rest)
  | line (l s) (h : l.Is s) (h1 : ¬ "TABLE,Region ".toList <+: s) (h2 : s ≠ "TABLE".toList) (h3 : l = .other → ¬ "call count,".toList <+: s) :
      RLine.Is (.line l) s

/-- The output has these lines. -/
def Output (ds : List RLine) (out : List Char) : Prop := ∃ ls, List.Forall₂ RLine.Is ds ls ∧ splitNl out = ls

/-- The region after these lines: the last one that was begun; the text before the first one has the empty name. -/
def regionAt (ds : List RLine) : List Char :=
  match ds.reverse.find? (fun | .region _ => true | .line _ => false) with
  | some (.region r) => r
  | _ => []

end Verif.RegionSpec
