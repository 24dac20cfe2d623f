import Verif.Spec.Lru

/-!
Specification for C149: the usual order of accesses within an iteration.
-/

namespace Verif.Spec

/-- One array after the other, each with ascending offsets, as in `b[i] = a[i-1] + a[i] + a[i+1]`. -/
structure InOrder (ord : List StencilAccess) : Prop where
  ascending : ord.Pairwise fun x y => x.arr = y.arr → x.off < y.off
  grouped : ∀ x y z, [x, y, z].Sublist ord → x.arr = z.arr → y.arr = x.arr

end Verif.Spec
