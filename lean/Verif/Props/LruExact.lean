import Verif.Lemmas.LruExact
import Verif.Props.LruMiss

/-!
Property C149: in the usual order of accesses the layer conditions predict exactly the misses of a fully associative LRU
cache. Model: `Verif.LayerCond`; specification: `Spec/Lru.lean`, `Spec/LruExact.lean`. C20 and C141 are about any order.
-/

namespace Verif.LayerCond

open Verif.Spec

/-- The full claim of C149 for one kernel, element size, cache and order: the misses of an iteration in an LRU cache are
those of the option selected by the layer conditions. -/
def C149Claim (arrays : List (List Int)) (s : Int) (cap : Nat) (ord : List StencilAccess) : Prop :=
  ∀ (sumSizes : Int) (fullStatic : Bool) (isStatic : Dist Nat → Bool) (nDest : Nat) (tails : List (Dist Nat)) (o : Opt),
    IsTails (stencilDists s arrays) tails → s * cap ≤ sumSizes →
    select (buildOptions (s * cap) sumSizes fullStatic isStatic (stencilDists s arrays) arrays.length nDest tails) = some o →
    ∀ n : Nat, (∀ g ∈ arrays.flatMap gaps, g ≤ (n : Int)) →
      misses cap (sweep (fun _ => ord) n) (ord.map (elemAt n)) = o.misses

/-- C149 is false as stated: `a[i] + a[i+1]` needs two elements for a hit, the cache holds one, and `a[i]` still hits,
because it is the element touched last. -/
theorem C149_negation : ¬ ∀ (arrays : List (List Int)) (s : Int) (cap : Nat) (ord : List StencilAccess),
    0 < s → (∀ offs ∈ arrays, offs ≠ []) → (∀ offs ∈ arrays, offs.Pairwise (fun a b => b < a)) → Uses arrays ord → InOrder ord →
      C149Claim arrays s cap ord := by
  intro h
  have := h [[1, 0]] 1 1 [⟨0, 0⟩, ⟨0, 1⟩] (by decide) (by simp) (by simp) ?_ ?_ 100 false (fun _ => true) 0
    (stencilDists 1 [[1, 0]]) ⟨true, true, 0, 2, 0⟩ ?_ (by decide) (by decide) 1 (by decide)
  · revert this
    decide
  · rintro ⟨k, o⟩
    match k with
    | 0 => simp; tauto
    | k + 1 => simp
  · exact ⟨by simp, by
      intro x y z h
      have := h.length_le
      simp at this⟩
  · exact ⟨by decide, by simp, by decide⟩

/-- C149, one access: in the usual order, an access that trails another one of its array hits if and only if the
requirement of its distance is at most one element larger than the cache. -/
theorem C149_hits_iff (arrays : List (List Int)) (hne : ∀ offs ∈ arrays, offs ≠ []) (hdec : ∀ offs ∈ arrays, offs.Pairwise (fun a b => b < a))
    (s : Int) (hs : 0 < s) (cap : Nat) (ord : List StencilAccess) (hord : Uses arrays ord) (hin : InOrder ord)
    (k : Nat) (offs : List Int) (i : Nat) (hi : i + 1 < offs.length) (hk : arrays[k]? = some offs)
    (n : Nat) (hn : offs[i] - offs[i + 1] ≤ n) (A B : List StencilAccess) (hsplit : ord = A ++ ⟨k, offs[i + 1]⟩ :: B) :
    Hits cap (fun _ => ord) n A ⟨k, offs[i + 1]⟩ ↔
      requirement (stencilDists s arrays) arrays.length (Sizes.number (s * (offs[i] - offs[i + 1]))) ≤ s * (cap + 1) := by
  refine hits_exact arrays hne hdec s hs cap ord hord hin k (offs.take i) (offs.drop (i + 2)) offs[i] offs[i + 1] ?_ n hn A B hsplit
  rw [hk, List.cons_getElem_drop_succ, List.cons_getElem_drop_succ, List.take_append_drop]

/-- C149, one iteration: the misses are the leading accesses of the arrays and the accesses whose requirement exceeds the
cache by more than one element. -/
theorem C149_count (arrays : List (List Int)) (hne : ∀ offs ∈ arrays, offs ≠ []) (hdec : ∀ offs ∈ arrays, offs.Pairwise (fun a b => b < a))
    (s : Int) (hs : 0 < s) (cap : Nat) (ord : List StencilAccess) (hord : Uses arrays ord) (hin : InOrder ord)
    (n : Nat) (hn : ∀ g ∈ arrays.flatMap gaps, g ≤ (n : Int)) :
    misses cap (sweep (fun _ => ord) n) (ord.map (elemAt n)) = arrays.length + (arrays.flatMap gaps).countP fun g =>
      decide (s * (cap + 1) < requirement (stencilDists s arrays) arrays.length (Sizes.number (s * g))) := by
  have hnd : ord.Nodup := by
    refine hin.ascending.imp ?_
    intro x y h he
    subst he
    exact lt_irrefl _ (h rfl)
  rw [← countP_uses arrays hne hdec ord hord hnd]
  apply misses_count
  intro A a B hsplit
  obtain ⟨k, o⟩ := a
  obtain ⟨offs, hk, ho⟩ := (hord ⟨k, o⟩).1 (by rw [hsplit]; simp)
  simp only at hk ho
  have hg : arrays.getD k [] = offs := by rw [List.getD_eq_getElem?_getD, hk]; rfl
  simp only [hg, lagging]
  cases hl : lag offs o with
  | none =>
    obtain ⟨tl, rfl⟩ := lag_none offs o ho hl
    have hA : (⟨k, o⟩ : StencilAccess) ∉ A := by
      rw [hsplit, List.nodup_append] at hnd
      intro h
      exact hnd.2.2 _ h _ (by simp) rfl
    simpa [Hits] using C141_leading arrays hdec cap (fun _ => ord) (fun _ => hord) k o tl hk n A B hsplit hA
  | some g =>
    obtain ⟨l, a, r, rfl, rfl⟩ := lag_some offs o g hl
    have hmem : a - o ∈ arrays.flatMap gaps :=
      List.mem_flatMap.2 ⟨_, List.mem_of_getElem? hk, by rw [gaps_split]; simp⟩
    have := hits_exact arrays hne hdec s hs cap ord hord hin k l r a o hk n (hn _ hmem) A B hsplit
    unfold Hits at this
    rw [this]
    simp

/-- C149: the misses in an iteration are those of the selected option, if no requirement is exactly one element larger
than the cache. Missing: such requirements, see `C149_negation`. -/
theorem C149_misses_partial (arrays : List (List Int)) (hne : ∀ offs ∈ arrays, offs ≠ []) (hdec : ∀ offs ∈ arrays, offs.Pairwise (fun a b => b < a))
    (s : Int) (hs : 0 < s) (cap : Nat) (ord : List StencilAccess) (hord : Uses arrays ord) (hin : InOrder ord)
    (hexact : ∀ g ∈ arrays.flatMap gaps,
      requirement (stencilDists s arrays) arrays.length (Sizes.number (s * g)) ≠ s * (cap + 1)) :
    C149Claim arrays s cap ord := by
  intro sumSizes fullStatic isStatic nDest tails o ht hfull ho n hn
  have hdec' : ∀ offs ∈ arrays, offs.Pairwise (fun a b => b ≤ a) := fun o ho => (hdec o ho).imp fun h => h.le
  rw [C149_count arrays hne hdec s hs cap ord hord hin n hn,
    selected_misses _ _ _ _ _ _ _ _ ht (stencil_mono s hs arrays hdec') hfull o ho]
  congr 1
  conv_rhs => rw [stencilDists_eq, List.map_map, List.countP_map, ← List.map_map, ← stencilDists_eq]
  apply List.countP_congr
  intro g hg
  have h0 := flatMap_gaps_nonneg arrays hdec' g hg
  have hx := hexact g hg
  simp only [Function.comp, decide_eq_true_eq]
  rw [requirement_elements s hs arrays hdec' g h0] at hx ⊢
  constructor
  · intro h
    refine lt_trans ?_ h
    exact mul_lt_mul_of_pos_left (by omega) hs
  · intro h
    refine lt_of_le_of_ne ?_ (Ne.symm hx)
    refine mul_le_mul_of_nonneg_left ?_ hs.le
    have := lt_of_mul_lt_mul_left h hs.le
    omega

/-- The order of `b[i] = a[i-9] + a[i] + a[i+1]`. -/
def farOrder : List StencilAccess := [⟨0, -9⟩, ⟨0, 0⟩, ⟨0, 1⟩, ⟨1, 0⟩]

theorem farOrder_uses : Uses [[1, 0, -9], [0]] farOrder := by
  rintro ⟨k, o⟩
  match k with
  | 0 => simp [farOrder]; tauto
  | 1 => simp [farOrder]
  | k + 2 => simp [farOrder]

theorem farOrder_inOrder : InOrder farOrder := by
  refine ⟨by simp [farOrder], ?_⟩
  intro x y z h he
  have h1 : farOrder.Pairwise fun x y => x.arr ≤ y.arr := by simp [farOrder]
  have := h1.sublist h
  simp only [List.pairwise_cons, List.mem_cons] at this
  have h2 := this.1 y (by simp)
  have h3 := this.2.1 z (by simp)
  omega

/-- In a cache of 20 elements `a[i]` hits, `a[i-9]` misses, as 28 elements would be needed: three misses in each
iteration. -/
example (n : Nat) (hn : 9 ≤ n) : misses 20 (sweep (fun _ => farOrder) n) (farOrder.map (elemAt n)) = 3 := by
  refine C149_misses_partial [[1, 0, -9], [0]] (by simp) (by simp) 8 (by decide) 20 farOrder farOrder_uses farOrder_inOrder (by decide)
    1000 false (fun _ => true) 1 (stencilDists 8 [[1, 0, -9], [0]]).reverse ⟨true, true, 1, 3, 1⟩ ?_ (by decide) (by decide) n ?_
  · refine ⟨by decide, by simp, by decide⟩
  · intro g hg
    have : g ∈ [(1 : Int), 9] := by simpa [gaps] using hg
    simp at this
    omega

/-- In a cache of 27 elements it hits already, although the layer conditions ask for 28. -/
example (n : Nat) (hn : 9 ≤ n) : misses 27 (sweep (fun _ => farOrder) n) (farOrder.map (elemAt n)) = 2 := by
  rw [C149_count [[1, 0, -9], [0]] (by simp) (by simp) 8 (by decide) 27 farOrder farOrder_uses farOrder_inOrder n]
  · decide
  · intro g hg
    have : g ∈ [(1 : Int), 9] := by simpa [gaps] using hg
    simp at this
    omega

end Verif.LayerCond
