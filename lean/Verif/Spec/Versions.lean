/-!
Versions of kerncraft: three numbers, and perhaps the number of a development version, which comes before the release.
-/

namespace Verif.Versions

structure Version where
  major : Nat
  minor : Nat
  patch : Nat
  dev : Option Nat
deriving DecidableEq

/-- Development versions come before the release. -/
def devBefore : Option Nat → Option Nat → Prop
  | some m, some n => m < n
  | some _, none => True
  | none, _ => False

/-- `v` is an earlier version than `w`. -/
def Before (v w : Version) : Prop :=
  v.major < w.major ∨ v.major = w.major ∧ (v.minor < w.minor ∨ v.minor = w.minor ∧
    (v.patch < w.patch ∨ v.patch = w.patch ∧ devBefore v.dev w.dev))

end Verif.Versions
