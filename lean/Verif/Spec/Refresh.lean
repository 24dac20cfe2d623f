/-!
Descriptions of machines as far as it matters which information is there, and what keeping information means.
-/

namespace Verif.Refresh

/-- Information, or a place where it is missing (`INFORMATION_REQUIRED` or `None`). -/
inductive Val where
  | info (s : String)
  | required
deriving DecidableEq, Repr

/-- A level of the memory hierarchy with its entries (those of `cache per group` and `performance counter metrics` by their full names). -/
structure Level where
  name : String
  entries : List (String × Val)
deriving DecidableEq, Repr

/-- A description: the entries besides the memory hierarchy, and the levels. -/
structure Desc where
  entries : List (String × Val)
  levels : List Level
deriving DecidableEq, Repr

/-- An entry is filled in. -/
def Filled (l : List (String × Val)) (k : String) : Prop := ∃ s, l.lookup k = some (.info s)

/-- An entry of a level is filled in. -/
def Desc.Filled (d : Desc) (n k : String) : Prop := ∃ l ∈ d.levels, l.name = n ∧ Refresh.Filled l.entries k

/-- Everything that was filled in is still filled in (maybe with other information). -/
def Keeps (old new : Desc) : Prop :=
  (∀ k, Filled old.entries k → Filled new.entries k) ∧ ∀ n k, old.Filled n k → new.Filled n k

/-- Entries of a cache which cannot be read. -/
def cacheUnknown : List String :=
  ["upstream throughput", "sets", "ways", "cl_size", "replacement_policy", "write_allocate", "write_back", "metric loads", "metric stores",
    "metric misses", "metric evicts"]

/-- Entries of the main memory which cannot be read. -/
def memoryUnknown : List String := ["metric loads", "metric stores", "size per group", "upstream throughput"]

end Verif.Refresh
