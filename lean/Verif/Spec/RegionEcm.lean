import Verif.Model.RegionEcm

/-! What C142 assumes about machine files and measurements. -/

namespace Verif.RegionEcm

variable {N P R S : Type}

/-- Every run reports the same value for an event with its parameters, in any register. -/
def Repeatable (count : Nat → N × R × P → ℚ) (val : N → P → ℚ) : Prop := ∀ i n r p, count i (n, r, p) = val n p

/-- What a cache misses or evicts is what the next level loads or stores, and accesses of the first one are its loads. The
metrics of the last level are those of the memory. -/
def Chained (levels : List (String × List (String × Metric S))) : Prop :=
  ∃ a b c d, levels = [("L1", a), ("L2", b), ("L3", c), ("MEM", d)] ∧
    a.lookup "accesses" = a.lookup "loads" ∧ a.lookup "misses" = b.lookup "loads" ∧ a.lookup "evicts" = b.lookup "stores" ∧
    b.lookup "misses" = c.lookup "loads" ∧ b.lookup "evicts" = c.lookup "stores" ∧
    c.lookup "misses" = d.lookup "loads" ∧ c.lookup "evicts" = d.lookup "stores"

/-- Loops of a kernel and of the description on the command line that are the same. -/
def SameLoops (loops : List Iteration.Loop) (infos : List Standalone.LoopInfo) : Prop :=
  List.Forall₂ (fun l i => i.start = l.start ∧ i.stop = l.stop ∧ i.step = l.incr) loops infos

end Verif.RegionEcm
