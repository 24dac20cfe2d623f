import Verif.Lemmas.LruMiss

/-!
Property C141: accesses that the layer conditions predict to miss do miss in a fully associative LRU cache. Model:
`Verif.LayerCond`; specification: `Spec/Lru.lean`. The counterpart for hits is C20.
-/

namespace Verif.LayerCond

open Verif.Spec

/-- The full claim of C141 for one kernel, element size, cache and order: an access that trails another one of the same
array by a distance whose requirement exceeds the cache misses. -/
def C141Claim (arrays : List (List Int)) (s : Int) (cap : Nat) (ord : Nat → List StencilAccess) : Prop :=
  ∀ (k : Nat) (offs : List Int) (i : Nat) (hi : i + 1 < offs.length), arrays[k]? = some offs → offs[i + 1] < offs[i] →
    s * cap < requirement (stencilDists s arrays) arrays.length (Sizes.number (s * (offs[i] - offs[i + 1]))) →
    ∀ (n : Nat) A B, offs[i] - offs[i + 1] ≤ n → ord n = A ++ ⟨k, offs[i + 1]⟩ :: B → ⟨k, offs[i + 1]⟩ ∉ A →
      ¬ Hits cap ord n A ⟨k, offs[i + 1]⟩

/-- The counterexample order: `a[i]`, `b[i]`, `a[i+1]`. -/
def lateOrder (_ : Nat) : List StencilAccess := [⟨0, 0⟩, ⟨1, 0⟩, ⟨0, 1⟩]

/-- C141 is false as stated: the requirement is 3 elements, the cache holds one, and `a[i]` still hits, because nothing is
touched since `a[i+1]` of the iteration before. -/
theorem C141_negation : ¬ ∀ (arrays : List (List Int)) (s : Int) (cap : Nat) (ord : Nat → List StencilAccess),
    (∀ n, Uses arrays (ord n)) → C141Claim arrays s cap ord := by
  intro h
  have := h [[1, 0], [0]] 1 1 lateOrder ?_ 0 [1, 0] 0 (by decide) (by decide) (by decide) (by decide) 1 []
    [⟨1, 0⟩, ⟨0, 1⟩] (by decide) rfl (by simp)
  · revert this
    unfold Hits
    decide
  · intro n a
    obtain ⟨k, o⟩ := a
    match k with
    | 0 => simp [lateOrder]; tauto
    | 1 => simp [lateOrder]
    | k + 2 => simp [lateOrder]

/-- C141, any order (it may even change between iterations): an access misses if the requirement of its distance exceeds
the cache by at least one element for each access that is at least as far behind or has no other one before it. Missing:
this slack, see `C141_negation`. -/
theorem C141_any_order_partial (arrays : List (List Int)) (hne : ∀ offs ∈ arrays, offs ≠ [])
    (hdec : ∀ offs ∈ arrays, offs.Pairwise (fun a b => b < a)) (s : Int) (hs : 0 < s) (cap : Nat)
    (ord : Nat → List StencilAccess) (hord : ∀ m, Uses arrays (ord m))
    (k : Nat) (offs : List Int) (i : Nat) (hi : i + 1 < offs.length) (hk : arrays[k]? = some offs)
    (hcap : s * cap + s * (((arrays.flatMap gaps).filter fun x => decide (offs[i] - offs[i + 1] ≤ x)).length + arrays.length : Nat) ≤
      requirement (stencilDists s arrays) arrays.length (Sizes.number (s * (offs[i] - offs[i + 1]))))
    (n : Nat) (A B : List StencilAccess) (hn : offs[i] - offs[i + 1] ≤ n) (hsplit : ord n = A ++ ⟨k, offs[i + 1]⟩ :: B)
    (hfirst : ⟨k, offs[i + 1]⟩ ∉ A) : ¬ Hits cap ord n A ⟨k, offs[i + 1]⟩ := by
  have hmemk : offs ∈ arrays := List.mem_of_getElem? hk
  have hstrict := hdec offs hmemk
  have hpos : offs[i + 1] < offs[i] := List.pairwise_iff_getElem.1 hstrict i (i + 1) (by omega) hi (by omega)
  have hdec' : ∀ offs ∈ arrays, offs.Pairwise (fun a b => b ≤ a) := fun o ho => (hdec o ho).imp fun h => h.le
  obtain ⟨g, hg⟩ : ∃ g : Nat, offs[i] - offs[i + 1] = (g : Int) + 1 := ⟨(offs[i] - offs[i + 1] - 1).toNat, by omega⟩
  rw [stencilDists_eq, requirement_less s hs _ (flatMap_gaps_nonneg arrays hdec') _ _ (by omega)] at hcap
  have hcap' : (cap : Int) ≤ ((arrays.flatMap gaps).map fun x => min x (g : Int)).sum + g * arrays.length := by
    rw [hg, show ((g : Int) + 1 - 1) = g by ring] at hcap
    exact le_of_mul_le_mul_left (by linarith) hs
  unfold Hits
  rw [sweep_split ord (n - g) n (by omega), List.append_assoc]
  refine miss_of_window cap _ _ _ ?_ (window arrays (fun _ o => ((n - g : Nat) : Int) + o) g) ?_ ?_
  · -- no other access of these iterations is to the same element
    intro hmem
    have hno : ∀ (m : Nat) (a : StencilAccess), n - g ≤ m → m ≤ n → (∃ o, arrays[a.arr]? = some o ∧ a.off ∈ o) →
        elemAt m a = elemAt n ⟨k, offs[i + 1]⟩ → m = n ∧ a = ⟨k, offs[i + 1]⟩ := by
      intro m a h1 h2 ⟨o, ho, hao⟩ he
      obtain ⟨ka, oa⟩ := a
      simp only [elemAt, Prod.mk.injEq] at he
      obtain ⟨rfl, he⟩ := he
      simp only at ho hao
      rw [hk] at ho
      cases ho
      obtain ⟨j, hj, rfl⟩ := List.getElem_of_mem hao
      rcases Nat.lt_trichotomy j (i + 1) with hji | hji | hji
      · have hge : offs[i] ≤ offs[j] := by
          rcases Nat.lt_or_ge j i with h | h
          · exact (List.pairwise_iff_getElem.1 hstrict j i (by omega) (by omega) h).le
          · have : j = i := by omega
            subst this; exact le_refl _
        omega
      · subst hji
        exact ⟨by omega, rfl⟩
      · have := List.pairwise_iff_getElem.1 hstrict (i + 1) j hi hj hji
        omega
    rcases List.mem_append.1 hmem with hmem | hmem
    · obtain ⟨m, hm, hmm⟩ := List.mem_flatMap.1 hmem
      obtain ⟨a, ha, he⟩ := List.mem_map.1 hmm
      rw [List.mem_range'_1] at hm
      have := hno m a hm.1 (by omega) ((hord m a).1 ha) he
      omega
    · obtain ⟨a, ha, he⟩ := List.mem_map.1 hmem
      have := hno n a (by omega) (le_refl _) ((hord n a).1 (by rw [hsplit]; simp [ha])) he
      exact hfirst (this.2 ▸ ha)
  · -- everything in the window is touched
    intro y hy
    unfold window at hy
    rw [Finset.mem_biUnion] at hy
    obtain ⟨k', hk', hy⟩ := hy
    rw [Finset.mem_image] at hy
    obtain ⟨x, hx, rfl⟩ := hy
    rw [mem_touched] at hx
    obtain ⟨o, ho, h1, h2⟩ := hx
    obtain ⟨off, hoff, rfl⟩ := List.mem_map.1 ho
    simp only at h1 h2
    have hlt : k' < arrays.length := by simpa using hk'
    have hget : arrays[k']? = some arrays[k'] := List.getElem?_eq_getElem hlt
    rw [List.getD_eq_getElem?_getD, hget] at hoff
    refine List.mem_append_left _ (List.mem_flatMap.2 ⟨(x - off).toNat, ?_, List.mem_map.2 ⟨⟨k', off⟩, ?_, ?_⟩⟩)
    · rw [List.mem_range'_1]
      omega
    · exact (hord _ _).2 ⟨_, hget, hoff⟩
    · simp only [elemAt, Prod.mk.injEq, true_and]
      omega
  · have := card_window_ge arrays ((n - g : Nat) : Int) g hne hdec'
    have h2 : (cap : Int) ≤ ((window arrays (fun _ o => ((n - g : Nat) : Int) + o) g).card : Int) := by linarith
    exact_mod_cast h2

/-- C141: the first access of each array in the direction of the sweep misses in every cache: its element was never
touched before. -/
theorem C141_leading (arrays : List (List Int)) (hdec : ∀ offs ∈ arrays, offs.Pairwise (fun a b => b < a)) (cap : Nat)
    (ord : Nat → List StencilAccess) (hord : ∀ m, Uses arrays (ord m)) (k : Nat) (o : Int) (offs : List Int)
    (hk : arrays[k]? = some (o :: offs)) (n : Nat) (A B : List StencilAccess) (hsplit : ord n = A ++ ⟨k, o⟩ :: B)
    (hfirst : ⟨k, o⟩ ∉ A) : ¬ Hits cap ord n A ⟨k, o⟩ := by
  have hmax : ∀ x ∈ o :: offs, x ≤ o := by
    intro x hx
    rcases List.mem_cons.1 hx with rfl | hx
    · exact le_refl _
    · exact ((List.pairwise_cons.1 (hdec _ (List.mem_of_getElem? hk))).1 x hx).le
  have hno : ∀ (m : Nat) (a : StencilAccess), m ≤ n → (∃ l, arrays[a.arr]? = some l ∧ a.off ∈ l) →
      elemAt m a = elemAt n ⟨k, o⟩ → m = n ∧ a = ⟨k, o⟩ := by
    intro m a h2 ⟨l, hl, hal⟩ he
    obtain ⟨ka, oa⟩ := a
    simp only [elemAt, Prod.mk.injEq] at he
    obtain ⟨rfl, he⟩ := he
    simp only at hl hal
    rw [hk] at hl
    cases hl
    have := hmax oa hal
    have hoa : oa = o := by omega
    subst hoa
    exact ⟨by omega, rfl⟩
  refine not_mem_lruRun cap _ _ fun hmem => ?_
  rcases List.mem_append.1 hmem with hmem | hmem
  · unfold sweep at hmem
    obtain ⟨m, hm, hmm⟩ := List.mem_flatMap.1 hmem
    obtain ⟨a, ha, he⟩ := List.mem_map.1 hmm
    rw [List.mem_range] at hm
    have := hno m a hm.le ((hord m a).1 ha) he
    omega
  · obtain ⟨a, ha, he⟩ := List.mem_map.1 hmem
    have := hno n a (le_refl _) ((hord n a).1 (by rw [hsplit]; simp [ha])) he
    exact hfirst (this.2 ▸ ha)

/-- Rows of a 5-point stencil of 100 elements and its result: the last reference needs 398 elements, so it misses in a
cache of 290. -/
example : requirement (stencilDists 8 [[100, 1, -1, -100], [0]]) 2 (Sizes.number (8 * (-1 - -100))) = 8 * 398 ∧
    8 * ((290 : Nat) : Int) + 8 * (((([[100, 1, -1, -100], [0]].flatMap gaps).filter fun x : Int => decide (-1 - -100 ≤ x)).length + 2 : Nat) : Int) ≤ 8 * 398 := by
  decide

/-- `b[i] = a[i] + a[i+3]`: `a[i]` misses in a cache of 6 elements. -/
example (n : Nat) (hn : 3 ≤ n) : ¬ Hits 6 (fun _ => [⟨0, 0⟩, ⟨0, 3⟩, ⟨1, 0⟩]) n [] ⟨0, 0⟩ := by
  refine C141_any_order_partial [[3, 0], [0]] (by simp) (by simp) 8 (by decide) 6 _ ?_ 0 [3, 0] 0 (by decide) (by decide) (by decide) n
    [] [⟨0, 3⟩, ⟨1, 0⟩] (by simp; omega) rfl (by simp)
  intro m a
  obtain ⟨k, o⟩ := a
  match k with
  | 0 => simp; tauto
  | 1 => simp
  | k + 2 => simp

end Verif.LayerCond
