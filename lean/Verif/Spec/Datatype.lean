/-!
Specification of C129: supported types, their sizes and the precision of their peak performance.
-/

namespace Verif.Datatype

/-- Specification: the types that are supported. -/
def Supported (t : List String) : Prop := ∃ b, (b = "float" ∨ b = "double") ∧ (t = [b] ∨ t = [b, "_Complex"])

/-- Specification: bytes of a value; a complex number has two parts. -/
def bytes (t : List String) : Nat := (if "double" ∈ t then 8 else 4) * if "_Complex" ∈ t then 2 else 1

/-- Specification: the entry of `FLOPs per cycle` for a type. -/
def precisionOf (t : List String) : String := if "double" ∈ t then "DP" else "SP"

end Verif.Datatype
