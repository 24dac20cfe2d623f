import Verif.Lemmas.LayerCond

/-!
Properties C18-C21 and C58 (layer conditions of `kerncraft/cacheprediction.py`).
Specification: `Verif.Spec.Lru` (LRU cache and sweeps).
-/

namespace Verif.LayerCond
open Verif.Layout Verif.Spec

variable {K : Type} [LinearOrder K]

/-! ## C18 -/

/-- C18: in every option, hits plus misses is the number of accesses of all arrays, where the distances
are those computed from the accesses (`mk` attaches sort keys and bytes), and evicts are bounded by the
number of written streams. -/
theorem C18_every_access_counted (arrays : List (List Int × List (List Int)))
    (hne : ∀ a ∈ arrays, a.2 ≠ []) (mk : Int → Dist K) (size sumSizes : Int) (fullStatic : Bool)
    (isStatic : Dist K → Bool) (nDest : Nat) (tails : List (Dist K)) (o : Opt)
    (ho : o ∈ buildOptions size sumSizes fullStatic isStatic
      ((arrays.flatMap (fun a => arrayDistances a.1 a.2)).filterMap (Option.map mk))
      ((arrays.flatMap (fun a => arrayDistances a.1 a.2)).countP Option.isNone) nDest tails) :
    o.hits + o.misses = (arrays.map (fun a => a.2.length)).sum ∧ o.evicts ≤ nDest := by
  have hlen : ((arrays.flatMap (fun a => arrayDistances a.1 a.2)).filterMap (Option.map mk)).length +
      (arrays.flatMap (fun a => arrayDistances a.1 a.2)).countP Option.isNone =
      (arrays.map (fun a => a.2.length)).sum := by
    clear ho
    induction arrays with
    | nil => simp
    | cons a l ih =>
      have ih' := ih (fun x hx => hne x (List.mem_cons_of_mem _ hx))
      have ha : a.2 ≠ [] := hne a (by simp)
      have h1 : ((arrayDistances a.1 a.2).filterMap (Option.map mk)).length = a.2.length - 1 := by
        unfold arrayDistances
        simp [List.filterMap_append, List.filterMap_map, length_gaps, sortedPositions]
      have h2 : (arrayDistances a.1 a.2).countP Option.isNone = 1 := by
        unfold arrayDistances
        simp [List.countP_append, List.countP_map, Function.comp_def]
      have h3 : 0 < a.2.length := List.length_pos_iff.2 ha
      rw [List.flatMap_cons, List.filterMap_append, List.countP_append, List.length_append,
        List.map_cons, List.sum_cons, ← ih', h1, h2]
      omega
  rcases mem_buildOptions _ _ _ _ _ _ _ _ _ ho with rfl | ⟨t, _, rfl⟩ | rfl
  · simp only [fullOpt]; omega
  · have := below_add_above ((arrays.flatMap (fun a => arrayDistances a.1 a.2)).filterMap (Option.map mk))
      ((arrays.flatMap (fun a => arrayDistances a.1 a.2)).countP Option.isNone) t
    simp only [tailOpt]; omega
  · simp only [fallback]; omega

/-- Numeric distances as the code orders them: `sympy_expr_abs_distance_key` of an integer is its
absolute value (`cacheprediction.py:46-48`); element size 8. -/
def mk8 (g : Int) : Dist Nat := ⟨(8 * g).natAbs, (8 * g).natAbs, 8 * g⟩

/-- 2D 5-point stencil plus a written array, 100 x 100 doubles. -/
def jacobi : List (List Int × List (List Int)) :=
  [([100, 100], [[0, 1], [0, -1], [1, 0], [-1, 0]]), ([100, 100], [[0, 0]])]

def jacobiDists : List (Dist Nat) :=
  (jacobi.flatMap (fun a => arrayDistances a.1 a.2)).filterMap (Option.map mk8)

example : jacobi.flatMap (fun a => arrayDistances a.1 a.2) = [some 99, some 2, some 99, none, none] := by
  decide
example : buildOptions 2000 160000 true (fun _ => true) jacobiDists 2 1 [mk8 99, mk8 2] =
    [⟨false, true, 5, 0, 0⟩, ⟨false, true, 3, 2, 1⟩, ⟨true, true, 1, 4, 1⟩] := by decide

/-! ## C19 -/

/-- C19: the selected option of a larger cache has at most as many misses. The set of distances may be
enumerated in a different order for the two caches and different conditions may be decided statically. -/
theorem C19_larger_cache_misses_less (ds : List (Dist K)) (nInf nDest : Nat) (sumSizes S S' : Int)
    (fs fs' : Bool) (st st' : Dist K → Bool) (tails tails' : List (Dist K))
    (ht : IsTails ds tails) (ht' : IsTails ds tails') (hS : S ≤ S') (o o' : Opt)
    (ho : select (buildOptions S sumSizes fs st ds nInf nDest tails) = some o)
    (ho' : select (buildOptions S' sumSizes fs' st' ds nInf nDest tails') = some o') :
    o'.misses ≤ o.misses := by
  have hbound : ∀ t : Dist K, above ds nInf t ≤ ds.length + nInf := fun t => by
    have := below_add_above ds nInf t; omega
  rw [select_buildOptions] at ho ho'
  by_cases h' : S' > sumSizes
  · rw [if_pos h', Option.some_inj] at ho'
    subst ho'
    simp [fullOpt]
  · rw [if_neg h'] at ho'
    rw [if_neg (by omega)] at ho
    cases hf : tails.find? (fun t => decide (requirement ds nInf t ≤ S)) with
    | none =>
      rw [hf] at ho
      simp only [Option.some_inj] at ho
      subst ho
      cases hf' : tails'.find? (fun t => decide (requirement ds nInf t ≤ S')) with
      | none =>
        rw [hf'] at ho'
        simp only [Option.some_inj] at ho'
        subst ho'
        simp [fallback]
      | some t' =>
        rw [hf'] at ho'
        simp only [Option.some_inj] at ho'
        subst ho'
        simpa [fallback, tailOpt] using hbound t'
    | some t =>
      rw [hf] at ho
      simp only [Option.some_inj] at ho
      subst ho
      have hcond : requirement ds nInf t ≤ S := by simpa using List.find?_some hf
      have hmem : t ∈ tails' := (ht'.2.1 t).2 ((ht.2.1 t).1 (List.mem_of_find?_eq_some hf))
      cases hf' : tails'.find? (fun t => decide (requirement ds nInf t ≤ S')) with
      | none =>
        rw [List.find?_eq_none] at hf'
        exact absurd (le_trans hcond hS) (by simpa using hf' t hmem)
      | some t' =>
        rw [hf'] at ho'
        simp only [Option.some_inj] at ho'
        subst ho'
        simp only [tailOpt]
        apply above_mono
        rw [List.find?_eq_some_iff_append] at hf'
        obtain ⟨_, as, bs, happ, hnot⟩ := hf'
        rw [happ, List.mem_append, List.mem_cons] at hmem
        rcases hmem with hm | rfl | hm
        · have := hnot t hm
          simp at this
          omega
        · exact le_refl _
        · have hp := ht'.2.2
          rw [happ, List.pairwise_append, List.pairwise_cons] at hp
          exact hp.2.1.1 t hm

example : IsTails jacobiDists [mk8 99, mk8 2] := by
  refine ⟨by decide, ?_, by decide⟩
  intro d
  rw [show jacobiDists = [mk8 99, mk8 2, mk8 99] by decide]
  simp
  tauto
example : (select (buildOptions 100 160000 true (fun _ => true) jacobiDists 2 1 [mk8 99, mk8 2])).map
    (·.misses) = some 4 ∧
  (select (buildOptions 4000 160000 true (fun _ => true) jacobiDists 2 1 [mk8 99, mk8 2])).map
    (·.misses) = some 2 := by decide

/-! ## C21 -/

/-- C21: some option is always selected, it is the first whose condition holds, and its condition means
what it says: full caching needs more than the sum of the arrays, a tail needs its requirement. -/
theorem C21_option_selected (ds : List (Dist K)) (nInf nDest : Nat) (sumSizes S : Int) (fs : Bool)
    (st : Dist K → Bool) (tails : List (Dist K)) :
    ∃ o pre post, select (buildOptions S sumSizes fs st ds nInf nDest tails) = some o ∧
      buildOptions S sumSizes fs st ds nInf nDest tails = pre ++ o :: post ∧
      o.cond = true ∧ (∀ p ∈ pre, p.cond = false) ∧
      ((o.misses = 0 ∧ o.evicts = 0 ∧ sumSizes < S) ∨
       (∃ t ∈ tails, requirement ds nInf t ≤ S ∧ o.misses = above ds nInf t ∧ o.hits = below ds t) ∨
       (o.hits = 0 ∧ S ≤ sumSizes ∧ ∀ t ∈ tails, S < requirement ds nInf t)) := by
  have hsel := select_buildOptions S sumSizes fs st ds nInf nDest tails
  have hex : ∃ o, select (buildOptions S sumSizes fs st ds nInf nDest tails) = some o ∧
      ((o.misses = 0 ∧ o.evicts = 0 ∧ sumSizes < S) ∨
       (∃ t ∈ tails, requirement ds nInf t ≤ S ∧ o.misses = above ds nInf t ∧ o.hits = below ds t) ∨
       (o.hits = 0 ∧ S ≤ sumSizes ∧ ∀ t ∈ tails, S < requirement ds nInf t)) := by
    rw [hsel]
    by_cases h : S > sumSizes
    · rw [if_pos h]; exact ⟨_, rfl, Or.inl ⟨rfl, rfl, h⟩⟩
    · rw [if_neg h]
      cases hf : tails.find? (fun t => decide (requirement ds nInf t ≤ S)) with
      | none =>
        refine ⟨_, rfl, Or.inr (Or.inr ⟨rfl, by omega, ?_⟩)⟩
        intro t ht
        rw [List.find?_eq_none] at hf
        simpa using hf t ht
      | some t =>
        refine ⟨_, rfl, Or.inr (Or.inl ⟨t, List.mem_of_find?_eq_some hf, ?_, rfl, rfl⟩)⟩
        simpa using List.find?_some hf
  obtain ⟨o, ho, hcase⟩ := hex
  have ho' := ho
  unfold select at ho'
  rw [List.find?_eq_some_iff_append] at ho'
  obtain ⟨hc, pre, post, happ, hpre⟩ := ho'
  exact ⟨o, pre, post, ho, happ, hc, fun p hp => by simpa using hpre p hp, hcase⟩

/-- C21: every level is resolved, whatever the number of levels and their sizes. -/
theorem C21_all_levels_resolved (ds : List (Dist K)) (nInf nDest : Nat) (sumSizes : Int) (fs : Bool)
    (st : Dist K → Bool) (tails : List (Dist K)) (sizes : List Int) :
    ∃ cache, desymbolize (sizes.map fun S => buildOptions S sumSizes fs st ds nInf nDest tails) =
      some cache ∧ cache.length = sizes.length := by
  induction sizes with
  | nil => exact ⟨[], rfl, rfl⟩
  | cons S l ih =>
    obtain ⟨cache, hc, hl⟩ := ih
    obtain ⟨o, _, _, ho, _⟩ := C21_option_selected ds nInf nDest sumSizes S fs st tails
    refine ⟨o :: cache, ?_, by simp [hl]⟩
    unfold desymbolize at hc ⊢
    rw [List.map_cons, List.mapM_cons, ho, hc]
    rfl

/-- C21: loads and stores of a level are the misses and evicts of the level above it, the last entry
(main memory) neither misses nor evicts, and it serves exactly the misses of the last cache. -/
theorem C21_statistics_consistent (cache : List Opt) (i : Nat) (hi : i < cache.length) :
    (getLoads cache)[i + 1]? = some (some ((getMisses cache).getD i 0)) ∧
    (getStores cache)[i + 1]? = some (some ((getEvicts cache).getD i 0)) ∧
    (getMisses cache)[cache.length]? = some 0 ∧ (getEvicts cache)[cache.length]? = some 0 ∧
    ∃ hits, getHits cache = some hits ∧ hits.length = cache.length + 1 ∧
      hits[i]? = some cache[i].hits ∧
      hits[cache.length]? = (getMisses cache)[cache.length - 1]? := by
  have hne : cache ≠ [] := by rintro rfl; simp at hi
  refine ⟨?_, ?_, ?_, ?_, ?_⟩
  · simp only [getLoads, getMisses, List.getD_eq_getElem?_getD, List.getElem?_cons_succ]
    rw [List.getElem?_append_left (by simpa using hi)]
    simp [hi]
  · simp only [getStores, getEvicts, List.getD_eq_getElem?_getD, List.getElem?_cons_succ]
    rw [List.getElem?_append_left (by simpa using hi)]
    simp [hi]
  · simp [getMisses]
  · simp [getEvicts]
  · refine ⟨cache.map (·.hits) ++ [(cache.getLast hne).misses], ?_, by simp, ?_, ?_⟩
    · simp [getHits, List.getLast?_eq_some_getLast hne]
    · rw [List.getElem?_append_left (by simpa using hi)]
      simp [hi]
    · have h1 : (getMisses cache)[cache.length - 1]? =
          (cache.map (·.misses))[cache.length - 1]? := by
        unfold getMisses
        exact List.getElem?_append_left (by rw [List.length_map]; omega)
      rw [h1, List.getElem?_map, List.getElem?_eq_getElem (by omega : cache.length - 1 < cache.length),
        List.getElem?_append_right (by simp)]
      simp [List.getLast_eq_getElem]

/-- C21: an empty hierarchy is an IndexError in `get_hits`. -/
theorem C21_no_cache_levels_rejected : getHits [] = none := rfl

example : desymbolize ([100, 4000, 200000].map
    fun S => buildOptions S 160000 true (fun _ => true) jacobiDists 2 1 [mk8 99, mk8 2]) =
    some [⟨true, true, 1, 4, 1⟩, ⟨true, true, 3, 2, 1⟩, ⟨true, true, 5, 0, 0⟩] := by decide

/-! ## C58 -/

/-- C58: distances telescope, for positions in any order. -/
theorem C58_telescope (l : List Int) (i j : Nat) (hij : i ≤ j) (hj : j < l.length) :
    l[i] - l[j] = (((gaps l).drop i).take (j - i)).sum := gaps_telescope l i j hij hj

/-- C58: one distance less than accesses. -/
theorem C58_count (l : List Int) : (gaps l).length = l.length - 1 := length_gaps l

/-- C58: no negative distance for decreasing positions. -/
theorem C58_nonneg (l : List Int) (h : l.Pairwise (fun a b => b ≤ a)) : ∀ d ∈ gaps l, 0 ≤ d :=
  gaps_nonneg l h

/-- C58: the code sorts subscript tuples, not positions. This gives decreasing positions whenever the
subscripts other than the first differ by less than the array extents. -/
theorem C58_code_order_nonneg (dims : List Int) (accs : List (List Int))
    (hlen : ∀ a ∈ accs, a.length = dims.length) (hc : ∀ a ∈ accs, ∀ b ∈ accs, CloseBy dims a b) :
    ∀ d ∈ gaps (sortedPositions dims accs), 0 ≤ d := by
  apply gaps_nonneg
  unfold sortedPositions
  have hperm := List.perm_insertionSort (fun a b => tupleGe a b = true) accs
  have : Std.Total (fun a b : List Int => tupleGe a b = true) := ⟨tupleGe_total⟩
  have : IsTrans (List Int) (fun a b => tupleGe a b = true) := ⟨tupleGe_trans⟩
  have hs := List.pairwise_insertionSort (fun a b : List Int => tupleGe a b = true) accs
  rw [List.pairwise_map]
  refine List.Pairwise.imp_of_mem ?_ hs
  intro a b ha hb hab
  have ha' := hperm.mem_iff.1 ha
  have hb' := hperm.mem_iff.1 hb
  rw [flatten_eq _ _ (hlen a ha'), flatten_eq _ _ (hlen b hb')]
  exact cIndex_mono dims a b (hlen a ha') (hlen b hb') (hc a ha' b hb') hab

/-- C58: what the predictor uses for an array are distances that telescope between the positions of its accesses in
some order, one less than there are accesses, followed by a single infinite distance. -/
theorem C58_predictor_distances (dims : List Int) (accs : List (List Int)) (hne : accs ≠ [])
    (hlen : ∀ a ∈ accs, a.length = dims.length) :
    ∃ (l : List (List Int)) (ds : List Int), l.Perm accs ∧ arrayDistances dims accs = ds.map some ++ [none] ∧
      ds.length + 1 = accs.length ∧ ∀ (i j : Nat) (hij : i ≤ j) (hj : j < l.length),
        cIndex dims l[i] - cIndex dims l[j] = ((ds.drop i).take (j - i)).sum := by
  have hperm := List.perm_insertionSort (fun a b => tupleGe a b = true) accs
  refine ⟨_, gaps (sortedPositions dims accs), hperm, rfl, ?_, ?_⟩
  · have := List.length_pos_iff.2 hne
    rw [length_gaps]
    simp only [sortedPositions, List.length_map, List.length_insertionSort]
    omega
  · intro i j hij hj
    have hj' : j < (sortedPositions dims accs).length := by simpa [sortedPositions] using hj
    rw [← gaps_telescope _ i j hij hj']
    simp only [sortedPositions, List.getElem_map]
    rw [flatten_eq _ _ (hlen _ (hperm.mem_iff.1 (List.getElem_mem _))),
      flatten_eq _ _ (hlen _ (hperm.mem_iff.1 (List.getElem_mem _)))]

example : arrayDistances [100, 100] [[0, 1], [0, -1], [1, 0], [-1, 0]] = [99, 2, 99].map some ++ [none] := by decide

/-- C58: without that hypothesis a distance of the code can be negative. -/
theorem C58_code_order_negative : gaps (sortedPositions [10, 10] [[0, 0], [1, -20]]) = [-10] := by decide

example : gaps [101, 1, -1, -100] = [100, 2, 99] := by decide
example : ∀ a ∈ [[0, 1], [0, -1], [1, 0], [-1, 0]], ∀ b ∈ [[0, 1], [0, -1], [1, 0], [-1, 0]],
    CloseBy [100, 100] a b := by
  intro a ha b hb
  simp at ha hb
  rcases ha with rfl | rfl | rfl | rfl <;> rcases hb with rfl | rfl | rfl | rfl <;>
    simp [CloseBy]

/-! ## C20 -/

/-- All distances of a numeric kernel with element size `s`, as the code orders them. -/
def stencilDists (s : Int) (arrays : List (List Int)) : List (Dist Nat) :=
  (arrays.flatMap gaps).map fun g => ⟨(s * g).natAbs, (s * g).natAbs, s * g⟩

/-- The orders of accesses within the iterations use exactly the given accesses. -/
def Uses (arrays : List (List Int)) (l : List StencilAccess) : Prop :=
  ∀ a, a ∈ l ↔ ∃ offs, arrays[a.arr]? = some offs ∧ a.off ∈ offs

/-- Access `b` in iteration `n`, where `A` are the accesses before it in that iteration, hits. -/
def Hits (cap : Nat) (ord : Nat → List StencilAccess) (n : Nat) (A : List StencilAccess)
    (b : StencilAccess) : Prop :=
  elemAt n b ∈ lruRun cap (sweep ord n ++ A.map (elemAt n))

/-- The full claim of C20 for one kernel, element size, tail, cache capacity and order. -/
def C20Claim (arrays : List (List Int)) (s : Int) (t : Dist Nat) (cap : Nat)
    (ord : Nat → List StencilAccess) : Prop :=
  requirement (stencilDists s arrays) arrays.length t < s * cap →
  ∀ (k : Nat) (offs : List Int) (i : Nat) (hi : i + 1 < offs.length), arrays[k]? = some offs →
    (s * (offs[i] - offs[i + 1])).natAbs ≤ t.key → offs[i + 1] < offs[i] →
    ∀ (n : Nat) A B, offs[i] - offs[i + 1] ≤ n → ord n = A ++ ⟨k, offs[i + 1]⟩ :: B →
      Hits cap ord n A ⟨k, offs[i + 1]⟩

/-- The counterexample order: `a[i+1], b[i], c[i], d[i], a[i]`. -/
def badOrder (_ : Nat) : List StencilAccess := [⟨0, 1⟩, ⟨1, 0⟩, ⟨2, 0⟩, ⟨3, 0⟩, ⟨0, 0⟩]

/-- C20 is false as stated: the requirement is 5 elements, the cache holds 6, and `a[i]` still misses,
because eight other elements are touched since `a[i+1]` of the iteration before. -/
theorem C20_negation : ¬ ∀ (arrays : List (List Int)) (s : Int) (t : Dist Nat) (cap : Nat)
    (ord : Nat → List StencilAccess), (∀ n, Uses arrays (ord n)) → t ∈ stencilDists s arrays →
    C20Claim arrays s t cap ord := by
  intro h
  have := h [[1, 0], [0], [0], [0]] 1 ⟨1, 1, 1⟩ 6 badOrder ?_ (by decide) (by decide) 0 [1, 0] 0
    (by decide) (by decide) (by decide) (by decide) 1 [⟨0, 1⟩, ⟨1, 0⟩, ⟨2, 0⟩, ⟨3, 0⟩] [] (by decide) rfl
  · revert this
    unfold Hits
    decide
  · intro n a
    obtain ⟨k, o⟩ := a
    match k with
    | 0 => simp [badOrder]
    | 1 => simp [badOrder]
    | 2 => simp [badOrder]
    | 3 => simp [badOrder]
    | k + 4 => simp [badOrder]

/-- C20, any order (it may even change between iterations): with one extra element per missing stream, every
access that is at most `t` iterations behind an earlier access to the same element hits. Missing: the cache
must hold `misses` elements more than the requirement, see `C20_negation`. -/
theorem C20_any_order_partial (arrays : List (List Int)) (hne : ∀ offs ∈ arrays, offs ≠ [])
    (hdec : ∀ offs ∈ arrays, offs.Pairwise (fun a b => b ≤ a))
    (ds : List (Dist K)) (s : Int) (hs : 0 < s)
    (hds : (ds.map (·.val)).Perm ((arrays.flatMap gaps).map (s * ·)))
    (t : Dist K) (tn : Nat) (htn : t.val = s * tn) (cap : Nat)
    (hcap : requirement ds arrays.length t + s * above ds arrays.length t ≤ s * cap)
    (ord : Nat → List StencilAccess)
    (hord : ∀ m, ∀ a ∈ ord m, ∃ offs, arrays[a.arr]? = some offs ∧ a.off ∈ offs)
    (n : Nat) (A B : List StencilAccess) (b : StencilAccess) (hn : ord n = A ++ b :: B)
    (hprev : (∃ m, m < n ∧ n ≤ m + tn ∧ ∃ a ∈ ord m, elemAt m a = elemAt n b) ∨
      ∃ a ∈ A, elemAt n a = elemAt n b) :
    Hits cap ord n A b := by
  unfold Hits
  rw [sweep_split ord (n - tn) n (by omega), List.append_assoc]
  refine hit_of_window cap _ _ _
    (window arrays (fun _ o => (n : Int) - tn + o) (tn + 1)) ?_ ?_ ?_
  · rcases hprev with ⟨m, hm, hmt, a, ha, he⟩ | ⟨a, ha, he⟩
    · apply List.mem_append_left
      rw [List.mem_flatMap]
      refine ⟨m, ?_, ?_⟩
      · rw [List.mem_range'_1]; omega
      · rw [← he]; exact List.mem_map_of_mem ha
    · apply List.mem_append_right
      rw [← he]; exact List.mem_map_of_mem ha
  · intro y hy
    have : ∃ m a, n ≤ m + tn ∧ m ≤ n ∧ a ∈ ord m ∧ y = elemAt m a := by
      rcases List.mem_append.1 hy with hy | hy
      · rw [List.mem_flatMap] at hy
        obtain ⟨m, hm, hy⟩ := hy
        rw [List.mem_range'_1] at hm
        rw [List.mem_map] at hy
        obtain ⟨a, ha, rfl⟩ := hy
        exact ⟨m, a, by omega, by omega, ha, rfl⟩
      · rw [List.mem_map] at hy
        obtain ⟨a, ha, rfl⟩ := hy
        exact ⟨n, a, by omega, le_refl _, by rw [hn]; simp [ha], rfl⟩
    obtain ⟨m, a, h1, h2, ha, rfl⟩ := this
    obtain ⟨offs, hk, ho⟩ := hord m a ha
    refine mem_window arrays _ _ a.arr offs a.off _ hk ho ?_ ?_
    · omega
    · push_cast; omega
  · have hw := card_window arrays (fun _ o => (n : Int) - tn + o) (tn + 1) hne
      (fun k offs hk => by
        rw [List.pairwise_map]
        exact (hdec offs (List.mem_of_getElem? hk)).imp (by intro a b h; omega))
      (fun k offs hk => by
        apply List.Pairwise.imp (R := fun a b => b ≤ a) _ (hdec offs (List.mem_of_getElem? hk))
        intro a b h; omega)
    have hr := requirement_bound ds arrays.length t (s * (tn + 1)) s (by rw [htn]; linarith)
    have hsum : (ds.map (fun d => min d.val (s * (tn + 1)))).sum =
        s * ((arrays.flatMap gaps).map (fun d => min d ((tn + 1 : Nat) : Int))).sum := by
      have h1 : ds.map (fun d => min d.val (s * (tn + 1))) =
          (ds.map (·.val)).map (fun v => min v (s * (tn + 1))) := by simp [Function.comp_def]
      rw [h1, (hds.map _).sum_eq, List.map_map, ← List.sum_map_mul_left]
      congr 1
      apply List.map_congr_left
      intro g _
      simp only [Function.comp]
      rw [mul_min_of_nonneg _ _ hs.le]
      push_cast
      rfl
    rw [hsum] at hr
    have : s * ((window arrays (fun _ o => (n : Int) - tn + o) (tn + 1)).card : Int) ≤ s * cap := by
      have := mul_le_mul_of_nonneg_left hw hs.le
      push_cast at this hr ⊢
      nlinarith
    have := le_of_mul_le_mul_left this hs
    exact_mod_cast this

/-- C20 for the usual evaluation order: if every iteration executes the accesses in the same order and
accesses to the same array come with increasing offset, the requirement itself suffices, for every access
whose distance is positive and at most the tail. Missing: other orders (`C20_negation`). -/
theorem C20_ascending_order_partial (arrays : List (List Int)) (hne : ∀ offs ∈ arrays, offs ≠ [])
    (hdec : ∀ offs ∈ arrays, offs.Pairwise (fun a b => b < a))
    (ds : List (Dist K)) (s : Int) (hs : 0 < s)
    (hds : (ds.map (·.val)).Perm ((arrays.flatMap gaps).map (s * ·)))
    (t : Dist K) (cap : Nat) (hcap : requirement ds arrays.length t ≤ s * cap)
    (ord : List StencilAccess) (hord : Uses arrays ord)
    (hasc : ord.Pairwise (fun x y => x.arr = y.arr → x.off < y.off))
    (k : Nat) (offs : List Int) (i : Nat) (hi : i + 1 < offs.length) (hk : arrays[k]? = some offs)
    (ht : s * (offs[i] - offs[i + 1]) ≤ t.val)
    (n : Nat) (A B : List StencilAccess) (hnd : offs[i] - offs[i + 1] ≤ n)
    (hsplit : ord = A ++ ⟨k, offs[i + 1]⟩ :: B) :
    Hits cap (fun _ => ord) n A ⟨k, offs[i + 1]⟩ := by
  have hmemk : offs ∈ arrays := List.mem_of_getElem? hk
  have hpos : offs[i + 1] < offs[i] :=
    List.pairwise_iff_getElem.1 (hdec offs hmemk) i (i + 1) (by omega) hi (by omega)
  obtain ⟨d, hd⟩ : ∃ d : Nat, offs[i] - offs[i + 1] = d := ⟨(offs[i] - offs[i + 1]).toNat, by omega⟩
  have hd0 : 0 < d := by omega
  have hdn : d ≤ n := by omega
  -- the producing access comes later in the order
  have hprod : (⟨k, offs[i]⟩ : StencilAccess) ∈ B := by
    have hm : (⟨k, offs[i]⟩ : StencilAccess) ∈ ord := (hord _).2 ⟨offs, hk, List.getElem_mem _⟩
    rw [hsplit, List.mem_append, List.mem_cons] at hm
    rcases hm with hm | hm | hm
    · exfalso
      rw [hsplit, List.pairwise_append] at hasc
      have := hasc.2.2 _ hm ⟨k, offs[i + 1]⟩ (by simp) rfl
      simp only at this
      omega
    · exfalso
      have := congrArg StencilAccess.off hm
      simp only at this
      omega
    · exact hm
  obtain ⟨B1, C, hB⟩ := List.append_of_mem hprod
  -- shift of the window of each access
  let pre : List StencilAccess := A ++ ⟨k, offs[i + 1]⟩ :: B1
  have hsplit' : ord = pre ++ ⟨k, offs[i]⟩ :: C := by rw [hsplit, hB]; simp [pre]
  let sh : Nat → Int → Int := fun j o => if (⟨j, o⟩ : StencilAccess) ∈ pre then 1 else 0
  have hsh01 : ∀ j o, sh j o = 0 ∨ sh j o = 1 := by
    intro j o; by_cases h : (⟨j, o⟩ : StencilAccess) ∈ pre <;> simp [sh, h]
  have hmono : ∀ (j : Nat) (l : List Int), arrays[j]? = some l → ∀ x ∈ l, ∀ y ∈ l, y < x →
      sh j x ≤ sh j y := by
    intro j l hj x hx y hy hyx
    by_cases hxp : (⟨j, x⟩ : StencilAccess) ∈ pre
    · have hyo : (⟨j, y⟩ : StencilAccess) ∈ ord := (hord _).2 ⟨l, hj, hy⟩
      have hyp : (⟨j, y⟩ : StencilAccess) ∈ pre := by
        rw [hsplit', List.mem_append] at hyo
        rcases hyo with h | h
        · exact h
        · exfalso
          rw [hsplit', List.pairwise_append] at hasc
          have := hasc.2.2 _ hxp _ h rfl
          simp only at this
          omega
      simp [sh, hxp, hyp]
    · rcases hsh01 j y with h | h <;> simp [sh, hxp] <;> simp [sh] at h <;> split <;> omega
  unfold Hits
  -- split the trace at the producing access in iteration n - d
  have hs1 : sweep (fun _ => ord) n = sweep (fun _ => ord) (n - d) ++
      (List.range' (n - d) d).flatMap (fun m => ord.map (elemAt m)) := by
    have := sweep_split (fun _ => ord) (n - d) n (by omega)
    rwa [show n - (n - d) = d by omega] at this
  obtain ⟨d', rfl⟩ : ∃ d', d = d' + 1 := ⟨d - 1, by omega⟩
  rw [List.range'_succ, List.flatMap_cons] at hs1
  have hs2 : ord.map (elemAt (n - (d' + 1))) = pre.map (elemAt (n - (d' + 1))) ++
      (⟨k, offs[i]⟩ :: C : List StencilAccess).map (elemAt (n - (d' + 1))) := by
    rw [← List.map_append, ← hsplit']
  rw [hs2] at hs1
  have htrace : sweep (fun _ => ord) n ++ A.map (elemAt n) =
      (sweep (fun _ => ord) (n - (d' + 1)) ++ pre.map (elemAt (n - (d' + 1)))) ++
      ((⟨k, offs[i]⟩ :: C : List StencilAccess).map (elemAt (n - (d' + 1))) ++
       (List.range' (n - (d' + 1) + 1) d').flatMap (fun m => ord.map (elemAt m)) ++
       A.map (elemAt n)) := by
    rw [hs1]; simp
  rw [htrace]
  have hCpre : ∀ a ∈ (⟨k, offs[i]⟩ :: C : List StencilAccess), a ∉ pre := by
    intro a ha hp
    rw [hsplit', List.pairwise_append] at hasc
    have := hasc.2.2 a hp a ha rfl
    omega
  refine hit_of_window cap _ _ _
    (window arrays (fun j o => (n : Int) - (d' + 1) + sh j o + o) (d' + 1)) ?_ ?_ ?_
  · apply List.mem_append_left
    apply List.mem_append_left
    rw [List.map_cons, List.mem_cons]
    left
    simp only [elemAt, Prod.mk.injEq, true_and]
    push_cast at hd
    omega
  · intro y hy
    have key : ∃ (m : Int) (a : StencilAccess), a ∈ ord ∧ y = (a.arr, m + a.off) ∧
        (n : Int) - (d' + 1) + sh a.arr a.off ≤ m ∧ m < (n : Int) + sh a.arr a.off := by
      rcases List.mem_append.1 hy with hy | hy
      · rcases List.mem_append.1 hy with hy | hy
        · rw [List.mem_map] at hy
          obtain ⟨a, ha, rfl⟩ := hy
          refine ⟨((n - (d' + 1) : Nat) : Int), a, ?_, rfl, ?_⟩
          · rw [hsplit', List.mem_append]; exact Or.inr ha
          · have : sh a.arr a.off = 0 := by simp [sh, hCpre a ha]
            omega
        · rw [List.mem_flatMap] at hy
          obtain ⟨m, hm, hy⟩ := hy
          rw [List.mem_range'_1] at hm
          rw [List.mem_map] at hy
          obtain ⟨a, ha, rfl⟩ := hy
          refine ⟨m, a, ha, rfl, ?_⟩
          rcases hsh01 a.arr a.off with h | h <;> omega
      · rw [List.mem_map] at hy
        obtain ⟨a, ha, rfl⟩ := hy
        have hpa : a ∈ pre := by simp [pre, ha]
        have : sh a.arr a.off = 1 := by simp [sh, hpa]
        refine ⟨n, a, ?_, rfl, by omega, by omega⟩
        rw [hsplit', List.mem_append]; exact Or.inl hpa
    obtain ⟨m, a, ha, rfl, h1, h2⟩ := key
    obtain ⟨l, hl, ho⟩ := (hord a).1 ha
    refine mem_window arrays _ _ a.arr l a.off _ hl ho ?_ ?_
    · omega
    · push_cast; omega
  · have hw := card_window arrays (fun j o => (n : Int) - (d' + 1) + sh j o + o) (d' + 1) hne
      (fun j l hl => by
        rw [List.pairwise_map]
        refine List.Pairwise.imp_of_mem ?_ (hdec l (List.mem_of_getElem? hl))
        intro a b _ _ h
        rcases hsh01 j a with h1 | h1 <;> rcases hsh01 j b with h2 | h2 <;> omega)
      (fun j l hl => by
        refine List.Pairwise.imp_of_mem ?_ (hdec l (List.mem_of_getElem? hl))
        intro a b ha hb h
        have := hmono j l hl a ha b hb h
        omega)
    have hr := requirement_bound ds arrays.length t (s * (d' + 1)) 0 (by
      rw [add_zero]; rw [hd] at ht; push_cast at ht; exact ht)
    have hsum : (ds.map (fun d => min d.val (s * (d' + 1)))).sum =
        s * ((arrays.flatMap gaps).map (fun d => min d ((d' + 1 : Nat) : Int))).sum := by
      have h1 : ds.map (fun d => min d.val (s * (d' + 1))) =
          (ds.map (·.val)).map (fun v => min v (s * (d' + 1))) := by simp [Function.comp_def]
      rw [h1, (hds.map _).sum_eq, List.map_map, ← List.sum_map_mul_left]
      congr 1
      apply List.map_congr_left
      intro g _
      simp only [Function.comp]
      rw [mul_min_of_nonneg _ _ hs.le]
      push_cast
      rfl
    rw [hsum] at hr
    have : s * ((window arrays (fun j o => (n : Int) - (d' + 1) + sh j o + o) (d' + 1)).card : Int) ≤
        s * cap := by
      have := mul_le_mul_of_nonneg_left hw hs.le
      push_cast at this hr ⊢
      nlinarith
    have := le_of_mul_le_mul_left this hs
    exact_mod_cast this

/-- C20, full caching: if the cache is larger than all arrays together, every element that was accessed
before hits, for any sequence of accesses inside the arrays. -/
theorem C20_full_caching (s : Int) (hs : 0 < s) (sizes : List Nat) (cap : Nat)
    (hcap : (sizes.map (fun n : Nat => s * (n : Int))).sum < s * cap) (trace : List (Nat × Int))
    (hin : ∀ x ∈ trace, ∃ sz, sizes[x.1]? = some sz ∧ 0 ≤ x.2 ∧ x.2 < sz) (x : Nat × Int)
    (hx : x ∈ trace) : x ∈ lruRun cap trace := by
  have := hit_of_window cap [] trace x
    ((Finset.range sizes.length).biUnion fun k =>
      (Finset.Ico (0 : Int) (sizes.getD k 0)).image fun p => (k, p)) hx ?_ ?_
  · simpa using this
  · intro y hy
    obtain ⟨sz, h1, h2, h3⟩ := hin y hy
    rw [Finset.mem_biUnion]
    refine ⟨y.1, by simpa using (List.getElem?_eq_some_iff.1 h1).1, ?_⟩
    rw [Finset.mem_image]
    refine ⟨y.2, ?_, rfl⟩
    rw [Finset.mem_Ico, List.getD_eq_getElem?_getD, h1]
    exact ⟨h2, h3⟩
  · refine le_trans Finset.card_biUnion_le ?_
    have h1 : ∑ k ∈ Finset.range sizes.length,
        ((Finset.Ico (0 : Int) (sizes.getD k 0)).image fun p => (k, p)).card ≤
        ∑ k ∈ Finset.range sizes.length, sizes.getD k 0 := by
      apply Finset.sum_le_sum
      intro k _
      refine le_trans Finset.card_image_le ?_
      simp
    have h2 : ∑ k ∈ Finset.range sizes.length, sizes.getD k 0 = sizes.sum := by
      clear hcap hin h1
      induction sizes with
      | nil => simp
      | cons a l ih =>
        rw [List.length_cons, Finset.sum_range_succ', List.sum_cons, ← ih]
        simp [add_comm]
    have h3 : (sizes.map (fun n : Nat => s * (n : Int))).sum = s * (sizes.sum : Int) := by
      rw [List.sum_map_mul_left]
      congr 1
      rw [Nat.cast_list_sum]
    rw [h3] at hcap
    have : (sizes.sum : Int) < cap := lt_of_mul_lt_mul_left hcap hs.le
    omega

/-- Keys of numeric distances are consistent with their values, so "counted as hit" means "distance at most
the tail" in the theorems above. -/
theorem C20_counted_hits_numeric (s : Int) (hs : 0 < s) (arrays : List (List Int))
    (hdec : ∀ offs ∈ arrays, offs.Pairwise (fun a b => b ≤ a)) (t : Dist Nat)
    (ht : t ∈ stencilDists s arrays) :
    below (stencilDists s arrays) t =
      ((arrays.flatMap gaps).filter (fun g => s * g ≤ t.val)).length := by
  have hnn : ∀ g ∈ arrays.flatMap gaps, 0 ≤ g := by
    intro g hg
    rw [List.mem_flatMap] at hg
    obtain ⟨offs, h1, h2⟩ := hg
    exact gaps_nonneg offs (hdec offs h1) g h2
  unfold stencilDists at ht
  rw [List.mem_map] at ht
  obtain ⟨g0, hg0, rfl⟩ := ht
  unfold below stencilDists
  rw [List.filter_map, List.length_map]
  congr 1
  apply List.filter_congr
  intro g hg
  simp only [Function.comp, decide_eq_decide]
  have h1 := mul_nonneg hs.le (hnn g hg)
  have h2 := mul_nonneg hs.le (hnn g0 hg0)
  omega

/-- Ascending order of the counterexample kernel: with capacity 5 the access `a[i]` hits. -/
def goodOrder : List StencilAccess := [⟨0, 0⟩, ⟨1, 0⟩, ⟨2, 0⟩, ⟨3, 0⟩, ⟨0, 1⟩]

example : Hits 5 (fun _ => goodOrder) 3 [] ⟨0, 0⟩ := by
  have := C20_ascending_order_partial [[1, 0], [0], [0], [0]] (by decide) (by decide)
    (stencilDists 1 [[1, 0], [0], [0], [0]]) 1 (by decide) (by decide) ⟨1, 1, 1⟩ 5 (by decide)
    goodOrder (by
      intro a
      obtain ⟨k, o⟩ := a
      match k with
      | 0 => simp [goodOrder]; tauto
      | 1 => simp [goodOrder]
      | 2 => simp [goodOrder]
      | 3 => simp [goodOrder]
      | k + 4 => simp [goodOrder]) (by decide) 0 [1, 0] 0 (by decide) (by decide) (by decide) 3 [] _
      (by decide) rfl
  exact this
example : Hits 9 badOrder 1 [⟨0, 1⟩, ⟨1, 0⟩, ⟨2, 0⟩, ⟨3, 0⟩] ⟨0, 0⟩ := by unfold Hits; decide
example : requirement (stencilDists 1 [[1, 0], [0], [0], [0]]) 4 ⟨1, 1, 1⟩ = 5 ∧
    above (stencilDists 1 [[1, 0], [0], [0], [0]]) 4 ⟨1, 1, 1⟩ = 4 := by decide

end Verif.LayerCond
