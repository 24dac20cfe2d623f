import Verif.Spec.Sizes
import Verif.Lemmas.Names
import Verif.Lemmas.Predict

/-! Lemmas for C140. -/

namespace Verif.Sizes

open Verif.Layout Verif.LayerCond Verif.Names Verif.Predict Verif.Spec

variable {K : Type} [LinearOrder K]

/-! ### Distances -/

theorem cElems_mono (dims dims' : List Int) (h : Extents dims dims') : 0 ≤ cElems dims ∧ cElems dims ≤ cElems dims' := by
  unfold Extents at h
  induction h with
  | nil => simp [cElems]
  | cons hc _ ih =>
    rw [cElems, cElems]
    exact ⟨Int.mul_nonneg hc.1 ih.1, mul_le_mul hc.2 ih.2 ih.1 (hc.1.trans hc.2)⟩

/-- One step in the next outer dimension outweighs what the inner dimensions can take back, the more so the larger they are. -/
theorem step_mono (dims dims' x y : List Int) (h : Extents dims dims') (hw : Within dims x y) :
    0 < cElems dims + (cIndex dims x - cIndex dims y) ∧
    cElems dims + (cIndex dims x - cIndex dims y) ≤ cElems dims' + (cIndex dims' x - cIndex dims' y) := by
  unfold Extents at h
  induction h generalizing x y with
  | nil =>
    cases x <;> cases y <;> simp [Within] at hw
    simp [cElems, cIndex]
  | @cons d d' ds ds' hc ht ih =>
    cases x with
    | nil => cases y <;> simp [Within] at hw
    | cons a x =>
      cases y with
      | nil => simp [Within] at hw
      | cons b y =>
        obtain ⟨h1, h2, h3⟩ := hw
        obtain ⟨i1, i2⟩ := ih x y h3
        obtain ⟨e1, e2⟩ := cElems_mono ds ds' ht
        have hs : ∀ D : Int, ∀ es : List Int, cElems (D :: es) + (cIndex (D :: es) (a :: x) - cIndex (D :: es) (b :: y)) =
            (D - 1 + (a - b)) * cElems es + (cElems es + (cIndex es x - cIndex es y)) := by
          intro D es
          rw [cElems, cIndex, cIndex]
          ring
        rw [hs, hs]
        have p1 : 0 ≤ (d - 1 + (a - b)) * cElems ds := Int.mul_nonneg (by omega) e1
        have p2 : (d - 1 + (a - b)) * cElems ds ≤ (d' - 1 + (a - b)) * cElems ds' :=
          mul_le_mul (by omega) e2 e1 (by omega)
        omega

theorem gap_mono (dims dims' x y : List Int) (h : Extents dims dims') (hw : Within dims x y) (hg : tupleGe x y = true) :
    0 ≤ cIndex dims x - cIndex dims y ∧ cIndex dims x - cIndex dims y ≤ cIndex dims' x - cIndex dims' y := by
  unfold Extents at h
  induction h generalizing x y with
  | nil =>
    cases x <;> cases y <;> simp [Within] at hw
    simp [cIndex]
  | @cons d d' ds ds' hc ht ih =>
    cases x with
    | nil => cases y <;> simp [Within] at hw
    | cons a x =>
      cases y with
      | nil => simp [Within] at hw
      | cons b y =>
        obtain ⟨h1, h2, h3⟩ := hw
        obtain ⟨e1, e2⟩ := cElems_mono ds ds' ht
        have hs : ∀ D : Int, ∀ es : List Int, cIndex (D :: es) (a :: x) - cIndex (D :: es) (b :: y) =
            (a - b - 1) * cElems es + (cElems es + (cIndex es x - cIndex es y)) := by
          intro D es
          rw [cIndex, cIndex]
          ring
        unfold tupleGe at hg
        by_cases hba : b < a
        · obtain ⟨i1, i2⟩ := step_mono ds ds' x y ht h3
          rw [hs, hs]
          have p1 : 0 ≤ (a - b - 1) * cElems ds := Int.mul_nonneg (by omega) e1
          have p2 : (a - b - 1) * cElems ds ≤ (a - b - 1) * cElems ds' := mul_le_mul_of_nonneg_left e2 (by omega)
          omega
        · by_cases hab : a < b
          · simp [hab, hba] at hg
          · simp only [hba, hab, if_false] at hg
            obtain rfl : a = b := by omega
            obtain ⟨i1, i2⟩ := ih x y h3 hg
            rw [cIndex, cIndex, cIndex, cIndex]
            omega

theorem within_length (dims x y : List Int) (h : Within dims x y) : x.length = dims.length ∧ y.length = dims.length := by
  induction dims generalizing x y with
  | nil => cases x <;> cases y <;> simp [Within] at h ⊢
  | cons d ds ih =>
    cases x with
    | nil => cases y <;> simp [Within] at h
    | cons a x =>
      cases y with
      | nil => simp [Within] at h
      | cons b y => simpa using ih x y h.2.2

theorem gaps_mono (dims dims' : List Int) (h : Extents dims dims') (l : List (List Int))
    (hw : ∀ x ∈ l, ∀ y ∈ l, Within dims x y) (hs : l.Pairwise (fun a b => tupleGe a b = true)) :
    List.Forall₂ (fun g g' => 0 ≤ g ∧ g ≤ g') (gaps (l.map (flatten dims))) (gaps (l.map (flatten dims'))) := by
  induction l with
  | nil => exact .nil
  | cons x l ih =>
    cases l with
    | nil => exact .nil
    | cons y l =>
      simp only [List.map_cons, gaps] at ih ⊢
      rw [List.pairwise_cons] at hs
      refine .cons ?_ (ih (fun a ha b hb => hw a (List.mem_cons_of_mem _ ha) b (List.mem_cons_of_mem _ hb)) hs.2)
      have hxy := hw x (by simp) y (by simp)
      obtain ⟨lx, ly⟩ := within_length dims x y hxy
      have hl : dims.length = dims'.length := List.Forall₂.length_eq h
      rw [flatten_eq dims x lx, flatten_eq dims y ly, flatten_eq dims' x (by omega), flatten_eq dims' y (by omega)]
      exact gap_mono dims dims' x y h hxy (hs.1 y (by simp))

/-- Infinite stays infinite, finite distances do not shrink. -/
def NotLess : Option Int → Option Int → Prop
  | none, none => True
  | some g, some g' => 0 ≤ g ∧ g ≤ g'
  | _, _ => False

theorem arrayDistances_mono (dims dims' : List Int) (h : Extents dims dims') (accs : List (List Int))
    (hw : ∀ x ∈ accs, ∀ y ∈ accs, Within dims x y) :
    List.Forall₂ NotLess (arrayDistances dims accs) (arrayDistances dims' accs) := by
  unfold arrayDistances sortedPositions
  have : Std.Total (fun a b : List Int => tupleGe a b = true) := ⟨tupleGe_total⟩
  have : IsTrans (List Int) (fun a b => tupleGe a b = true) := ⟨tupleGe_trans⟩
  have hm : ∀ x, x ∈ accs.insertionSort (fun a b => tupleGe a b = true) → x ∈ accs :=
    fun x hx => (List.perm_insertionSort _ _).mem_iff.1 hx
  have hg := gaps_mono dims dims' h _ (fun x hx y hy => hw x (hm x hx) y (hm y hy))
    (List.pairwise_insertionSort (fun a b : List Int => tupleGe a b = true) accs)
  refine List.rel_append ?_ (.cons trivial .nil)
  rw [List.forall₂_map_left_iff, List.forall₂_map_right_iff]
  exact hg

theorem sort_resize (ext : String → List Int) (arrays : List ArrRefs) :
    (arrays.map (resize ext)).insertionSort (fun a b => a.name ≤ b.name) =
      (arrays.insertionSort (fun a b => a.name ≤ b.name)).map (resize ext) := by
  symm
  apply List.map_insertionSort
  intro a _ b _
  rfl

theorem allDistances_mono (ext : String → List Int) (arrays : List ArrRefs) (h : Larger ext arrays) :
    List.Forall₂ NotLess (allDistances arrays) (allDistances (arrays.map (resize ext))) := by
  unfold allDistances
  rw [sort_resize, List.flatMap_map]
  have hm : ∀ a ∈ arrays.insertionSort (fun a b => a.name ≤ b.name), a ∈ arrays :=
    fun x hx => (List.perm_insertionSort _ _).mem_iff.1 hx
  revert hm
  generalize arrays.insertionSort (fun a b => a.name ≤ b.name) = l
  induction l with
  | nil => intro _; exact .nil
  | cons a l ih =>
    intro hm
    rw [List.flatMap_cons, List.flatMap_cons]
    refine List.rel_append ?_ (ih fun b hb => hm b (by simp [hb]))
    obtain ⟨h1, h2⟩ := h a (hm a (by simp))
    by_cases ha : a.accs = []
    · simp [resize, ha]
    · simp only [resize, ha, if_false]
      exact arrayDistances_mono _ _ h1 _ h2

theorem finite_mono {l l' : List (Option Int)} (h : List.Forall₂ NotLess l l') :
    List.Forall₂ (fun g g' => 0 ≤ g ∧ g ≤ g') (l.filterMap id) (l'.filterMap id) ∧
    l.countP Option.isNone = l'.countP Option.isNone := by
  induction h with
  | nil => exact ⟨.nil, rfl⟩
  | @cons a b _ _ hc _ ih =>
    cases a <;> cases b <;> simp only [NotLess] at hc
    · simpa using ih
    · simp only [List.filterMap_cons, id, List.countP_cons, Option.isNone]
      exact ⟨.cons hc ih.1, by simpa using ih.2⟩

theorem sizes_mono (ext : String → List Int) (arrays : List ArrRefs) (h : Larger ext arrays) (el : Int) (hel : 0 ≤ el) :
    (arrays.map fun a => arraySize a.dims * el).sum ≤ ((arrays.map (resize ext)).map fun a => arraySize a.dims * el).sum := by
  induction arrays with
  | nil => simp
  | cons a l ih =>
    have hl := ih fun b hb => h b (by simp [hb])
    have ha := cElems_mono _ _ (h a (by simp)).1
    simp only [List.map_cons, List.sum_cons, resize, arraySize_eq] at hl ⊢
    have := mul_le_mul_of_nonneg_right ha.2 hel
    omega

theorem destinations_resize (ext : String → List Int) (arrays : List ArrRefs) :
    destinations (arrays.map (resize ext)) = destinations arrays := by
  unfold destinations
  rw [sort_resize, List.flatMap_map]
  rfl

/-! ### Layer conditions -/

/-- Distances of a larger problem with the same sort keys. -/
def Keyed (ds ds' : List (Dist K)) : Prop := List.Forall₂ (fun d d' => d.key = d'.key ∧ d.val ≤ d'.val) ds ds'

omit [LinearOrder K] in
theorem keyed_mem (ds ds' : List (Dist K)) (h : Keyed ds ds') (d' : Dist K) (hd : d' ∈ ds') :
    ∃ d ∈ ds, d.key = d'.key ∧ d.val ≤ d'.val := by
  unfold Keyed at h
  induction h with
  | nil => simp at hd
  | @cons a b _ _ hc _ ih =>
    rcases List.mem_cons.1 hd with rfl | hd
    · exact ⟨a, by simp, hc⟩
    · obtain ⟨d, h1, h2⟩ := ih hd
      exact ⟨d, by simp [h1], h2⟩

omit [LinearOrder K] in
theorem keyed_filter (p : K → Bool) (ds ds' : List (Dist K)) (h : Keyed ds ds') :
    Keyed (ds.filter fun d => p d.key) (ds'.filter fun d => p d.key) := by
  unfold Keyed at h
  induction h with
  | nil => exact .nil
  | @cons a b _ _ hc _ ih =>
    rw [List.filter_cons, List.filter_cons, hc.1]
    split
    · exact .cons hc ih
    · exact ih

omit [LinearOrder K] in
theorem keyed_sum (ds ds' : List (Dist K)) (h : Keyed ds ds') : (ds.map (·.val)).sum ≤ (ds'.map (·.val)).sum := by
  unfold Keyed at h
  induction h with
  | nil => simp
  | cons hc _ ih => simp only [List.map_cons, List.sum_cons]; have := hc.2; omega

theorem keyed_above (ds ds' : List (Dist K)) (h : Keyed ds ds') (n : Nat) (t t' : Dist K) (ht : t.key = t'.key) :
    above ds n t = above ds' n t' := by
  unfold above
  rw [ht, (keyed_filter (fun k => decide (t'.key < k)) ds ds' h).length_eq]

theorem keyed_requirement (ds ds' : List (Dist K)) (h : Keyed ds ds') (n : Nat) (t t' : Dist K) (ht : t.key = t'.key)
    (hv : t.val ≤ t'.val) : requirement ds n t ≤ requirement ds' n t' := by
  unfold requirement
  rw [keyed_above ds ds' h n t t' ht, ht]
  have h1 := keyed_sum _ _ (keyed_filter (fun k => decide (k ≤ t'.key)) ds ds' h)
  have h2 : t.val * (above ds' n t' : Int) ≤ t'.val * (above ds' n t' : Int) := mul_le_mul_of_nonneg_right hv (by positivity)
  omega

/-- What a level condition finds, whatever the order of distances of equal size: if `t` satisfies its condition, at most
the distances above `t` miss. -/
theorem selected_at_most (w : Work K) (c : Cache K) (o : Opt) (ht : IsTails w.ds c.tails) (h : Selected w c o) :
    o.misses ≤ w.ds.length + w.nInf ∧
    ∀ t ∈ w.ds, requirement w.ds w.nInf t ≤ c.size → o.misses ≤ above w.ds w.nInf t := by
  have hbound : ∀ t : Dist K, above w.ds w.nInf t ≤ w.ds.length + w.nInf := fun t => by
    have := below_add_above w.ds w.nInf t; omega
  unfold Selected at h
  rw [select_buildOptions] at h
  split at h
  · simp only [Option.some_inj] at h
    rw [← h]
    simp [fullOpt]
  · cases hf : c.tails.find? (fun t => decide (requirement w.ds w.nInf t ≤ c.size)) with
    | none =>
      rw [hf] at h
      simp only [Option.some_inj] at h
      refine ⟨by rw [← h]; simp [fallback], fun t ht' hr => ?_⟩
      rw [List.find?_eq_none] at hf
      exact absurd hr (by simpa using hf t ((ht.2.1 t).2 ht'))
    | some s =>
      rw [hf] at h
      simp only [Option.some_inj] at h
      rw [← h]
      simp only [tailOpt]
      refine ⟨hbound s, fun t ht' hr => ?_⟩
      have hmem := (ht.2.1 t).2 ht'
      rw [List.find?_eq_some_iff_append] at hf
      obtain ⟨_, as, bs, happ, hnot⟩ := hf
      apply above_mono
      rw [happ, List.mem_append, List.mem_cons] at hmem
      rcases hmem with hm | rfl | hm
      · have := hnot t hm
        simp at this
        omega
      · exact le_refl _
      · have hp := ht.2.2
        rw [happ, List.pairwise_append, List.pairwise_cons] at hp
        exact hp.2.1.1 t hm

/-- The misses are those of full caching, of a distance whose condition holds, or all. -/
theorem selected_cases (w : Work K) (c : Cache K) (o : Opt) (ht : IsTails w.ds c.tails) (h : Selected w c o) :
    w.sumSizes < c.size ∨ (∃ t ∈ w.ds, requirement w.ds w.nInf t ≤ c.size ∧ o.misses = above w.ds w.nInf t) ∨
      o.misses = w.ds.length + w.nInf := by
  unfold Selected at h
  rw [select_buildOptions] at h
  split at h
  · rename_i hs
    exact .inl hs
  · cases hf : c.tails.find? (fun t => decide (requirement w.ds w.nInf t ≤ c.size)) with
    | none =>
      rw [hf] at h
      simp only [Option.some_inj] at h
      exact .inr (.inr (by rw [← h]; simp [fallback]))
    | some s =>
      rw [hf] at h
      simp only [Option.some_inj] at h
      refine .inr (.inl ⟨s, (ht.2.1 s).1 (List.mem_of_find?_eq_some hf), by simpa using List.find?_some hf, ?_⟩)
      rw [← h]
      rfl

theorem selected_full (w : Work K) (c : Cache K) (o : Opt) (h : Selected w c o) (hs : w.sumSizes < c.size) : o.misses = 0 := by
  unfold Selected at h
  rw [select_buildOptions, if_pos hs] at h
  simp only [Option.some_inj] at h
  rw [← h]
  rfl

/-- Two works of which the second is of a larger problem: whenever a condition holds for the second, one holds for the first
that is at least as good. -/
structure Grown (w w' : Work K) : Prop where
  total : w.ds.length + w.nInf = w'.ds.length + w'.nInf
  nDest : w.nDest = w'.nDest
  sizes : w.sumSizes ≤ w'.sumSizes
  tails : ∀ t' ∈ w'.ds, ∃ t ∈ w.ds, requirement w.ds w.nInf t ≤ requirement w'.ds w'.nInf t' ∧
    above w.ds w.nInf t ≤ above w'.ds w'.nInf t'

theorem grown_less (w w' : Work K) (hg : Grown w w') (c c' : Cache K) (o o' : Opt) (ht : IsTails w.ds c.tails)
    (ht' : IsTails w'.ds c'.tails) (hs : c.size = c'.size) (h : Selected w c o) (h' : Selected w' c' o') : Less o' o := by
  have hm := selected_at_most w c o ht h
  constructor
  · rcases selected_cases w' c' o' ht' h' with hf | ⟨t', h1, h2, h3⟩ | ha
    · rw [selected_full w c o h (by have := hg.sizes; omega)]
      omega
    · obtain ⟨t, i1, i2, i3⟩ := hg.tails t' h1
      have := hm.2 t i1 (by omega)
      omega
    · have := hg.total
      have := hm.1
      omega
  · rw [selected_evicts w c o h, selected_evicts w' c' o' h']
    have h1 := hg.sizes
    have h2 := hg.nDest
    split <;> split <;> omega

theorem traffic_grown (w w' : Work K) (hg : Grown w w') (cs cs' : List (Cache K)) (hc : SameSizes w w' cs cs') :
    ∃ os os', traffic w cs = some os ∧ traffic w' cs' = some os' ∧ List.Forall₂ Less os' os := by
  obtain ⟨os, ho, hf⟩ := traffic_selected w cs
  obtain ⟨os', ho', hf'⟩ := traffic_selected w' cs'
  refine ⟨os, os', ho, ho', ?_⟩
  clear ho ho'
  unfold SameSizes at hc
  induction hc generalizing os os' with
  | nil => cases hf; cases hf'; exact .nil
  | cons hx _ ih =>
    cases hf with
    | cons h1 h2 =>
      cases hf' with
      | cons h1' h2' => exact .cons (grown_less w w' hg _ _ _ _ hx.1 hx.2.1 hx.2.2 h1 h1') (ih _ h2 _ h2')

theorem grown_keyed (w w' : Work K) (h : Keyed w.ds w'.ds) (hn : w.nInf = w'.nInf) (hd : w.nDest = w'.nDest)
    (hs : w.sumSizes ≤ w'.sumSizes) : Grown w w' := by
  refine ⟨by rw [hn, h.length_eq], hd, hs, fun t' ht' => ?_⟩
  obtain ⟨t, h1, h2, h3⟩ := keyed_mem _ _ h t' ht'
  refine ⟨t, h1, ?_, ?_⟩
  · rw [hn]; exact keyed_requirement _ _ h _ t t' h2 h3
  · rw [hn, keyed_above _ _ h _ t t' h2]

/-! ### Numbers as keys -/

theorem requirement_min (l : List Int) (hl : ∀ x ∈ l, 0 ≤ x) (n : Nat) (t : Int) (ht : 0 ≤ t) :
    requirement (l.map number) n (number t) = (l.map fun x => min x t).sum + t * n := by
  induction l with
  | nil => simp [requirement, above, number]
  | cons x l ih =>
    have hx := hl x (by simp)
    have ih := ih fun y hy => hl y (by simp [hy])
    simp only [requirement, above, List.map_cons, List.filter_cons] at ih ⊢
    by_cases h : x ≤ t
    · have h1 : (number x).key ≤ (number t).key := by simp only [number]; omega
      have h2 : ¬ (number t).key < (number x).key := not_lt.2 h1
      simp only [h1, h2, decide_true, decide_false, if_true, List.map_cons, List.sum_cons]
      simp only [Bool.false_eq_true, if_false]
      rw [show min x t = x by omega, show (number x).val = x from rfl, add_assoc, ih]
      ring
    · have h1 : ¬ (number x).key ≤ (number t).key := by simp only [number]; omega
      have h2 : (number t).key < (number x).key := not_le.1 h1
      simp only [h1, h2, decide_true, decide_false, if_true, List.length_cons, List.sum_cons, Bool.false_eq_true, if_false]
      rw [show (number t).val = t from rfl] at ih ⊢
      rw [show min x t = t by omega]
      push_cast at ih ⊢
      linarith

theorem grown_numbers (l l' : List Int) (h : List.Forall₂ (fun g g' => 0 ≤ g ∧ g ≤ g') l l') (n nd : Nat) (s s' : Int) (hs : s ≤ s') :
    Grown (⟨l.map number, n, nd, s⟩ : Work Nat) ⟨l'.map number, n, nd, s'⟩ := by
  have hl : ∀ x ∈ l, 0 ≤ x := by
    clear hs
    induction h with
    | nil => simp
    | cons hc _ ih => intro x hx; rcases List.mem_cons.1 hx with rfl | hx; exacts [hc.1, ih x hx]
  have hl' : ∀ x ∈ l', 0 ≤ x := by
    clear hs hl
    induction h with
    | nil => simp
    | cons hc _ ih => intro x hx; rcases List.mem_cons.1 hx with rfl | hx; exacts [hc.1.trans hc.2, ih x hx]
  refine ⟨by simp [h.length_eq], rfl, hs, fun t' ht' => ?_⟩
  obtain ⟨y, hy, rfl⟩ := List.mem_map.1 ht'
  -- the largest distance of the smaller problem that does not exceed `y`
  obtain ⟨x, hx, hxy, hmax⟩ : ∃ x ∈ l, x ≤ y ∧ ∀ z ∈ l, z ≤ y → z ≤ x := by
    have hne : ∃ x ∈ l, x ≤ y := by
      clear hl hl' ht' hs
      induction h with
      | nil => simp at hy
      | @cons a b _ _ hc _ ih =>
        rcases List.mem_cons.1 hy with rfl | hy
        · exact ⟨a, by simp, hc.2⟩
        · obtain ⟨x, h1, h2⟩ := ih hy
          exact ⟨x, by simp [h1], h2⟩
    clear h hl hl' ht' hs hy
    induction l with
    | nil => simp at hne
    | cons a l ih =>
      by_cases hex : ∃ x ∈ l, x ≤ y
      · obtain ⟨x, h1, h2, h3⟩ := ih hex
        by_cases ha : a ≤ y ∧ x ≤ a
        · refine ⟨a, by simp, ha.1, fun z hz hzy => ?_⟩
          rcases List.mem_cons.1 hz with rfl | hz
          · exact le_refl _
          · exact (h3 z hz hzy).trans ha.2
        · refine ⟨x, by simp [h1], h2, fun z hz hzy => ?_⟩
          rcases List.mem_cons.1 hz with rfl | hz
          · by_contra hc; exact ha ⟨hzy, (not_le.1 hc).le⟩
          · exact h3 z hz hzy
      · obtain ⟨x, h1, h2⟩ := hne
        rcases List.mem_cons.1 h1 with rfl | h1
        · refine ⟨x, by simp, h2, fun z hz hzy => ?_⟩
          rcases List.mem_cons.1 hz with rfl | hz
          · exact le_refl _
          · exact absurd ⟨z, hz, hzy⟩ hex
        · exact absurd ⟨x, h1, h2⟩ hex
  refine ⟨number x, List.mem_map_of_mem hx, ?_, ?_⟩
  · simp only
    rw [requirement_min l hl n x (hl x hx), requirement_min l' hl' n y (hl' y hy)]
    have h1 : (l.map fun z => min z x).sum ≤ (l'.map fun z => min z y).sum := by
      clear hl hl' ht' hs hy hmax hx
      induction h with
      | nil => simp
      | cons hc _ ih => simp only [List.map_cons, List.sum_cons]; have := hc.2; omega
    have h2 : x * (n : Int) ≤ y * (n : Int) := mul_le_mul_of_nonneg_right hxy (by positivity)
    omega
  · simp only [above]
    have hy0 := hl' y hy
    clear hs ht' hy hx
    have hx0 : 0 ≤ x ∨ True := .inr trivial
    have key : ∀ l l' : List Int, List.Forall₂ (fun g g' => 0 ≤ g ∧ g ≤ g') l l' → (∀ z ∈ l, z ≤ y → z ≤ x) →
        ((l.map number).filter fun d => decide ((number x).key < d.key)).length ≤
        ((l'.map number).filter fun d => decide ((number y).key < d.key)).length := by
      intro l l' h hm
      induction h with
      | nil => simp
      | @cons a b l l' hc _ ih =>
        have ih := ih fun z hz => hm z (by simp [hz])
        simp only [List.map_cons, List.filter_cons]
        have ha := hm a (by simp)
        by_cases h1 : (number x).key < (number a).key
        · have h2 : (number y).key < (number b).key := by
            simp only [number] at h1 ⊢
            by_contra hcon
            have : a ≤ x := ha (by omega)
            omega
          simp only [h1, h2, decide_true, if_true, List.length_cons]
          omega
        · simp only [h1, decide_false, Bool.false_eq_true, if_false]
          split
          · simp only [List.length_cons]; omega
          · exact ih
    have := key l l' h hmax
    omega

theorem grown_symWork (ext : String → List Int) (arrays : List ArrRefs) (h : Larger ext arrays) (exprs : List (Nat × K))
    (el : Int) (hel : 0 ≤ el) : Grown (symWork exprs el arrays) (symWork exprs el (arrays.map (resize ext))) := by
  have hd := allDistances_mono ext arrays h
  have hf := finite_mono hd
  refine grown_keyed _ _ ?_ hf.2 (by simp only [symWork, destinations_resize]) (sizes_mono ext arrays h el hel)
  simp only [symWork, finite, Keyed]
  have hz := hf.1
  clear hf hd
  revert hz
  generalize (allDistances arrays).filterMap id = l
  generalize (allDistances (arrays.map (resize ext))).filterMap id = l'
  intro hz
  induction hz generalizing exprs with
  | nil => cases exprs <;> exact .nil
  | cons hc _ ih =>
    cases exprs with
    | nil => exact .nil
    | cons e es => exact .cons ⟨rfl, mul_le_mul_of_nonneg_right hc.2 hel⟩ (ih es)

theorem grown_work (ext : String → List Int) (arrays : List ArrRefs) (h : Larger ext arrays) (el : Int) (hel : 0 ≤ el) :
    Grown (work number el arrays) (work number el (arrays.map (resize ext))) := by
  have hd := allDistances_mono ext arrays h
  have hf := finite_mono hd
  have he : ∀ l : List (Option Int), l.filterMap (Option.map fun d => number (d * el)) = ((l.filterMap id).map (· * el)).map number := by
    intro l
    induction l with
    | nil => rfl
    | cons a l ih => cases a <;> simp [ih]
  unfold work
  rw [he, he, ← hf.2, destinations_resize]
  refine grown_numbers _ _ ?_ _ _ _ _ (sizes_mono ext arrays h el hel)
  exact List.rel_map (fun a b hab => ⟨Int.mul_nonneg hab.1 hel, mul_le_mul_of_nonneg_right hab.2 hel⟩) hf.1

end Verif.Sizes
