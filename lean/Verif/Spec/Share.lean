import Verif.Model.Share

/-! What C145 says about the share of a core. -/

namespace Verif.Share

variable {K : Type} [LinearOrder K]

/-- The size of the whole cache. -/
def whole (e : Entry) : Nat := e.sets * e.ways * e.clSize

/-- The number of cores that use one group of the cache, if the cores of one group are filled before those of the next. -/
def users (cores : Nat) (e : Entry) : Nat := min cores e.coresPerGroup

/-- `s` is the share of each of `n` cores in the cache: shares fit, and less than one set per core is left over. -/
def IsShare (e : Entry) (n s : Nat) : Prop :=
  s * n ≤ whole e ∧ whole e ≤ s * n + (n - 1) * (e.ways * e.clSize)

/-- Each run takes the distances in a valid order, for each cache. -/
def Ordered (w : Predict.Work K) (entries : List Entry) (orders : List (Order K)) : Prop :=
  orders.length = entries.length ∧ ∀ o ∈ orders, LayerCond.IsTails w.ds o.tails

end Verif.Share
