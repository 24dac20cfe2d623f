import Verif.Model.Settings
import Verif.Spec.IntText

/-! What C147 says. -/

namespace Verif.Settings

open Verif.Options Verif.CoreRuns Verif.IntText

/-- What a setting means: a word, or the number that is given or written. -/
inductive Stands (words : List String) : Val → Val → Prop
  | word (s : String) : s ∈ words → Stands words (.text s) (.text s)
  | num (n : Int) : Stands words (.num n) (.num n)
  | written (s : String) (n : Int) : s ∉ words → Means s n → Stands words (.text s) (.num n)

/-- The name of a predictor on the command line. -/
def named : Kind → String
  | .sim => "SIM"
  | .lc => "LC"

/-- Block and pointer increment mean what was given. -/
def CoreAs (block incr : Val) (verbose : Nat) (c : Core) : Prop :=
  Stands ["auto", "manual"] block c.asmBlock ∧
    Stands ["auto", "auto_with_manual_fallback", "manual"] incr c.pointerIncrement ∧ c.verbose = verbose

/-- Arguments are valid. -/
def Valid (block incr : Val) : Prop :=
  (∃ v, Stands ["auto", "manual"] block v) ∧ ∃ v, Stands ["auto", "auto_with_manual_fallback", "manual"] incr v

end Verif.Settings
