/-!
Syntaxes of x86 assembly: which lines can be read in which, and the markers in each.
-/

namespace Verif.Dialect

/-- The two syntaxes. -/
inductive Dialect where
  | intel
  | att
deriving DecidableEq, Repr

/-- What the library for assembly does: lines it can read in a syntax, the lines of both markers in a syntax, and the syntax that it reads
if none is named. -/
structure Library (L : Type) where
  reads : Dialect → L → Bool
  start : Dialect → List L
  stop : Dialect → List L
  default : Dialect

/-- All lines can be read. -/
def Readable {L : Type} (lib : Library L) (d : Dialect) (code : List L) : Prop := ∀ l ∈ code, lib.reads d l = true

/-- The markers can be read in their syntax. -/
def Library.Sound {L : Type} (lib : Library L) : Prop := ∀ d, Readable lib d (lib.start d) ∧ Readable lib d (lib.stop d)

/-- The syntax of code: Intel if it can be read so, otherwise the one of AT&T. -/
def IsIn {L : Type} (lib : Library L) (code : List L) : Dialect → Prop
  | .intel => Readable lib .intel code
  | .att => ¬ Readable lib .intel code ∧ Readable lib .att code

end Verif.Dialect
