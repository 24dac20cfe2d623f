import Verif.Model.Install

/-!
What an installation of IACA should be.
-/

namespace Verif.Install

/-- All tools that Kerncraft runs are in the directory, for a system. -/
def Complete (os : Os) (d : Dir) : Prop := ∀ r ∈ ["iaca2.2", "iaca2.3", "iaca3.0"], ∃ v, (r, v) ∈ d.links ∧ (v, os) ∈ d.versions

/-- A location in which every tool that Kerncraft runs can be started: the links to the tools lead to versions that are there. -/
def Usable (l : Loc) : Prop := ∃ d, l.dir = some d ∧ ∀ r ∈ ["iaca2.2", "iaca2.3", "iaca3.0"], ∃ v, (r, v) ∈ d.links ∧ ∃ os, (v, os) ∈ d.versions

/-- A location that can be installed to. -/
def Free (l : Loc) : Prop := l.dir = none ∧ l.allowed = true

/-- The arguments of a user who accepts the licence, without and with `--force` (in either position). -/
def Accepts (argv : List String) : Prop := ∃ p, argv = [p, accept]

/-- With `--force`. -/
def Forces (argv : List String) : Prop := ∃ p, p ≠ "--force" ∧ (argv = [p, accept, "--force"] ∨ argv = [p, "--force", accept])

/-- The other location. -/
def Place.other : Place → Place
  | .home => .package
  | .package => .home

/-- The number of steps of an installation: four versions and four links. -/
def allSteps : Nat := 8

end Verif.Install
