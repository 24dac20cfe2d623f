/-!
Caches that are shared by groups of cores.
-/

namespace Verif.Spec

/-- Number of groups of `g` cores that contain the first `c` cores. -/
def groups (c g : Nat) : Nat := (c + g - 1) / g

/-- Memory in all caches that the first `c` cores use. -/
def capacity (size g c : Nat) : Nat := groups c g * size

end Verif.Spec
