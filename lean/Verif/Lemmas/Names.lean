import Verif.Model.Names
import Verif.Spec.Names
import Verif.Lemmas.Predict
import Verif.Props.Layout
import Mathlib.Data.Finset.Card
import Mathlib.Data.Finset.Image
import Mathlib.Data.List.Dedup

/-! Lemmas for C139. -/

namespace Verif.Names

open Verif.Layout Verif.LayerCond Verif.Spec Verif.Predict

variable {K : Type} [LinearOrder K]

/-! ### Layer conditions -/

theorem tupleGe_antisymm (a b : List Int) (h1 : tupleGe a b = true) (h2 : tupleGe b a = true) : a = b := by
  induction a generalizing b with
  | nil => cases b with
    | nil => rfl
    | cons y b => simp [tupleGe] at h1
  | cons x a ih =>
    cases b with
    | nil => simp [tupleGe] at h2
    | cons y b =>
      unfold tupleGe at h1 h2
      by_cases hxy : y < x
      · simp [hxy, not_lt_of_gt hxy] at h2
      · by_cases hyx : x < y
        · simp [hyx, hxy] at h1
        · simp only [hxy, hyx, if_false] at h1 h2
          rw [ih b h1 h2, le_antisymm (not_lt.1 hxy) (not_lt.1 hyx)]

theorem arrayDistances_perm (dims : List Int) (accs accs' : List (List Int)) (h : accs.Perm accs') :
    arrayDistances dims accs = arrayDistances dims accs' := by
  unfold arrayDistances sortedPositions
  have : Std.Total (fun a b : List Int => tupleGe a b = true) := ⟨tupleGe_total⟩
  have : IsTrans (List Int) (fun a b => tupleGe a b = true) := ⟨tupleGe_trans⟩
  have he : accs.insertionSort (fun a b => tupleGe a b = true) = accs'.insertionSort (fun a b => tupleGe a b = true) := by
    apply List.Perm.eq_of_pairwise _ (List.pairwise_insertionSort _ _) (List.pairwise_insertionSort _ _)
    · exact ((List.perm_insertionSort _ _).trans h).trans (List.perm_insertionSort _ _).symm
    · intro a b _ _ h1 h2
      exact tupleGe_antisymm a b h1 h2
  rw [he]

theorem flatMap_forall₂ {α β : Type} (f g : α → List β) {R : α → α → Prop} (hR : ∀ a b, R a b → f a = g b) {l l' : List α}
    (h : List.Forall₂ R l l') : l.flatMap f = l'.flatMap g := by
  induction h with
  | nil => rfl
  | cons hc _ ih => rw [List.flatMap_cons, List.flatMap_cons, ih, hR _ _ hc]

theorem allDistances_same (ρ : String → String) (arrays arrays' : List ArrRefs) (h : SameKernel ρ arrays arrays') :
    (allDistances arrays).Perm (allDistances arrays') := by
  obtain ⟨l, hf, hp⟩ := h
  unfold allDistances
  refine ((List.perm_insertionSort _ arrays).flatMap_right _).trans (.trans ?_ ((List.perm_insertionSort _ arrays').flatMap_right _).symm)
  refine .trans (.of_eq ?_) (hp.flatMap_right _)
  refine flatMap_forall₂ _ _ (R := Renamed ρ) (fun a b hab => ?_) hf
  rw [hab.dims, arrayDistances_perm a.dims _ _ hab.accs]
  by_cases ha : a.accs = []
  · have : b.accs = [] := by have := hab.accs; rw [ha] at this; exact this.nil_eq.symm
    simp [ha, this]
  · have : b.accs ≠ [] := fun hb => ha (by have := hab.accs; rw [hb] at this; exact this.eq_nil)
    simp [ha, this]

theorem destinations_same (ρ : String → String) (hρ : Function.Injective ρ) (arrays arrays' : List ArrRefs)
    (h : SameKernel ρ arrays arrays') : (destinations arrays).length = (destinations arrays').length := by
  obtain ⟨l, hf, hp⟩ := h
  unfold destinations
  have key : ∀ xs : List ArrRefs, ((xs.insertionSort (fun a b => a.name ≤ b.name)).flatMap fun a => a.dests.map fun d => (a.name, d)).Perm
      (xs.flatMap fun a => a.dests.map fun d => (a.name, d)) := fun xs => (List.perm_insertionSort _ xs).flatMap_right _
  rw [((key arrays).dedup).length_eq, ((key arrays').dedup).length_eq,
    ← ((hp.flatMap_right fun a => a.dests.map fun d => (a.name, d)).dedup).length_eq]
  have hinj : Function.Injective (fun p : String × List Int => (ρ p.1, p.2)) := by
    rintro ⟨a, b⟩ ⟨c, d⟩ hab
    simp only [Prod.mk.injEq] at hab
    rw [hρ hab.1, hab.2]
  have hperm : ((arrays.flatMap fun a => a.dests.map fun d => (a.name, d)).map fun p => (ρ p.1, p.2)).Perm
      (l.flatMap fun a => a.dests.map fun d => (a.name, d)) := by
    clear hp key
    induction hf with
    | nil => exact .refl _
    | cons hc _ ih =>
      rw [List.flatMap_cons, List.flatMap_cons, List.map_append, List.map_map]
      refine .append ?_ ih
      rw [hc.name]
      exact hc.dests.map _
  rw [← (hperm.dedup).length_eq, List.dedup_map_of_injective hinj, List.length_map]

theorem sizes_same (ρ : String → String) (el : Int) (arrays arrays' : List ArrRefs) (h : SameKernel ρ arrays arrays') :
    (arrays.map fun a => arraySize a.dims * el).sum = (arrays'.map fun a => arraySize a.dims * el).sum := by
  obtain ⟨l, hf, hp⟩ := h
  rw [← (hp.map _).sum_eq]
  clear hp
  induction hf with
  | nil => rfl
  | cons hc _ ih => simp only [List.map_cons, List.sum_cons]; rw [ih, hc.dims]

theorem above_perm (ds ds' : List (Dist K)) (h : ds.Perm ds') (n : Nat) (t : Dist K) : above ds n t = above ds' n t := by
  unfold above
  rw [(h.filter _).length_eq]

theorem below_perm (ds ds' : List (Dist K)) (h : ds.Perm ds') (t : Dist K) : below ds t = below ds' t := by
  unfold below
  rw [(h.filter _).length_eq]

theorem requirement_perm (ds ds' : List (Dist K)) (h : ds.Perm ds') (n : Nat) (t : Dist K) :
    requirement ds n t = requirement ds' n t := by
  unfold requirement
  rw [((h.filter _).map _).sum_eq, above_perm ds ds' h]

theorem tailOptions_perm (size : Int) (st : Dist K → Bool) (ds ds' : List (Dist K)) (h : ds.Perm ds') (n d : Nat)
    (tails : List (Dist K)) : tailOptions size st ds n d tails = tailOptions size st ds' n d tails := by
  induction tails with
  | nil => rfl
  | cons t ts ih =>
    unfold tailOptions
    rw [ih, requirement_perm ds ds' h, below_perm ds ds' h, above_perm ds ds' h]

theorem buildOptions_perm (size sum : Int) (fs : Bool) (st : Dist K → Bool) (ds ds' : List (Dist K)) (h : ds.Perm ds') (n d : Nat)
    (tails : List (Dist K)) : buildOptions size sum fs st ds n d tails = buildOptions size sum fs st ds' n d tails := by
  unfold buildOptions
  rw [tailOptions_perm size st ds ds' h, h.length_eq]

/-- Two works that differ in the order of the distances only. -/
structure SameWork (w w' : Work K) : Prop where
  ds : w.ds.Perm w'.ds
  nInf : w.nInf = w'.nInf
  nDest : w.nDest = w'.nDest
  sumSizes : w.sumSizes = w'.sumSizes

omit [LinearOrder K] in
theorem work_same (mk : Int → Dist K) (el : Int) (ρ : String → String) (hρ : Function.Injective ρ) (arrays arrays' : List ArrRefs)
    (h : SameKernel ρ arrays arrays') : SameWork (work mk el arrays) (work mk el arrays') :=
  ⟨(allDistances_same ρ arrays arrays' h).filterMap _, (allDistances_same ρ arrays arrays' h).countP_eq _,
    destinations_same ρ hρ arrays arrays' h, sizes_same ρ el arrays arrays' h⟩

theorem traffic_work (w w' : Work K) (h : SameWork w w') (cs : List (Cache K)) : traffic w cs = traffic w' cs := by
  unfold traffic
  congr 1
  refine List.map_congr_left fun c _ => ?_
  rw [buildOptions_perm _ _ _ _ _ _ h.ds, h.nInf, h.nDest, h.sumSizes]

theorem larger_of_same (w : Work K) (cs cs' : List (Cache K)) (h : SameCaches w cs cs') : Larger w cs cs' ∧ Larger w cs' cs := by
  constructor
  · exact h.imp fun _ _ hc => ⟨hc.1, hc.2.1, hc.2.2.le⟩
  · exact h.flip.imp fun _ _ hc => ⟨hc.2.1, hc.1, hc.2.2.ge⟩

theorem less_antisymm {os os' : List Opt} (h : List.Forall₂ Less os os') (h' : List.Forall₂ Less os' os) :
    List.Forall₂ (fun o o' => o'.misses = o.misses ∧ o'.evicts = o.evicts) os os' := by
  induction h with
  | nil => exact .nil
  | cons hc _ ih =>
    cases h' with
    | cons hc' ht' => exact .cons ⟨le_antisymm hc.1 hc'.1, le_antisymm hc.2 hc'.2⟩ (ih ht')

theorem traffic_same (w w' : Work K) (hw : SameWork w w') (cs cs' : List (Cache K)) (hc : SameCaches w cs cs') :
    ∃ os os', traffic w cs = some os ∧ traffic w' cs' = some os' ∧ getLoads os = getLoads os' ∧ getStores os = getStores os' := by
  obtain ⟨os, ho, hf⟩ := traffic_selected w cs
  obtain ⟨os', ho', hf'⟩ := traffic_selected w cs'
  refine ⟨os, os', ho, by rw [← traffic_work w w' hw, ho'], ?_⟩
  have hl := larger_of_same w cs cs' hc
  have he := less_antisymm (traffic_less w cs cs' hl.1 os os' hf hf') (traffic_less w cs' cs hl.2 os' os hf' hf)
  unfold getLoads getStores
  clear ho ho' hf hf'
  induction he with
  | nil => exact ⟨rfl, rfl⟩
  | cons hx _ ih => 
    simp only [List.map_cons, List.cons.injEq, true_and] at ih ⊢
    rw [hx.1, hx.2]
    exact ⟨⟨rfl, ih.1⟩, rfl, ih.2⟩

/-! ### Simulation -/

theorem erase_map {α β : Type} [DecidableEq α] [DecidableEq β] (g : α → β) (c : List α) (x : α)
    (h : ∀ y ∈ c, g y = g x → y = x) : (c.map g).erase (g x) = (c.erase x).map g := by
  induction c with
  | nil => rfl
  | cons y c ih =>
    by_cases hy : y = x
    · subst hy; simp
    · have hg : g y ≠ g x := fun e => hy (h y (by simp) e)
      rw [List.map_cons, List.erase_cons_tail (by simpa using hg), List.erase_cons_tail (by simpa using hy), List.map_cons,
        ih fun z hz => h z (by simp [hz])]

theorem lruAccess_map {α β : Type} [DecidableEq α] [DecidableEq β] (g : α → β) (cap : Nat) (c : List α) (x : α)
    (h : ∀ y ∈ c, g y = g x → y = x) : lruAccess cap (c.map g) (g x) = (lruAccess cap c x).map g := by
  unfold lruAccess
  rw [erase_map g c x h, ← List.map_cons, List.map_take]

theorem mem_lruAccess {α : Type} [DecidableEq α] (cap : Nat) (c : List α) (x y : α) (h : y ∈ lruAccess cap c x) : y = x ∨ y ∈ c := by
  unfold lruAccess at h
  rcases List.mem_cons.1 (List.mem_of_mem_take h) with h | h
  · exact .inl h
  · exact .inr (List.mem_of_mem_erase h)

theorem foldl_lru_map {α β : Type} [DecidableEq α] [DecidableEq β] (g : α → β) (cap : Nat) (S : α → Prop)
    (hS : ∀ x y, S x → S y → g x = g y → x = y) (t c : List α) (ht : ∀ x ∈ t, S x) (hc : ∀ x ∈ c, S x) :
    (t.map g).foldl (lruAccess cap) (c.map g) = (t.foldl (lruAccess cap) c).map g ∧ ∀ x ∈ t.foldl (lruAccess cap) c, S x := by
  induction t generalizing c with
  | nil => exact ⟨rfl, hc⟩
  | cons x t ih =>
    rw [List.map_cons, List.foldl_cons, List.foldl_cons,
      lruAccess_map g cap c x fun y hy e => hS y x (hc y hy) (ht x (by simp)) e]
    refine ih _ (fun y hy => ht y (by simp [hy])) fun y hy => ?_
    rcases mem_lruAccess cap c x y hy with rfl | h
    · exact ht y (by simp)
    · exact hc y h

/-- Misses of an LRU cache only depend on which accesses are to the same line. -/
theorem misses_map {α β : Type} [DecidableEq α] [DecidableEq β] (g : α → β) (cap : Nat) (S : α → Prop)
    (hS : ∀ x y, S x → S y → g x = g y → x = y) (t pre : List α) (ht : ∀ x ∈ t, S x) (hp : ∀ x ∈ pre, S x) :
    misses cap (pre.map g) (t.map g) = misses cap pre t := by
  induction t generalizing pre with
  | nil => rfl
  | cons x t ih =>
    rw [List.map_cons]
    unfold misses
    have he : lruRun cap (pre.map g) = (lruRun cap pre).map g := (foldl_lru_map g cap S hS pre [] hp (by simp)).1
    have hm : ∀ y ∈ lruRun cap pre, S y := (foldl_lru_map g cap S hS pre [] hp (by simp)).2
    have hx : g x ∈ (lruRun cap pre).map g ↔ x ∈ lruRun cap pre := by
      constructor
      · rintro h
        obtain ⟨y, hy, e⟩ := List.mem_map.1 h
        rw [← hS y x (hm y hy) (ht x (by simp)) e]
        exact hy
      · exact List.mem_map_of_mem
    rw [he, show pre.map g ++ [g x] = (pre ++ [x]).map g by simp,
      ih (pre ++ [x]) (fun y hy => ht y (by simp [hy])) fun y hy => by
        rcases List.mem_append.1 hy with h | h
        · exact hp y h
        · rw [List.mem_singleton.1 h]; exact ht x (by simp)]
    simp only [hx]

/-- Both traces agree on which accesses are to the same line. -/
def Alike (z : List (Int × Int)) : Prop := ∀ x ∈ z, ∀ y ∈ z, x.1 = y.1 ↔ x.2 = y.2

theorem misses_alike (cap : Nat) (pre t : List (Int × Int)) (h : Alike (pre ++ t)) :
    misses cap (pre.map Prod.fst) (t.map Prod.fst) = misses cap (pre.map Prod.snd) (t.map Prod.snd) := by
  have hp : ∀ x ∈ pre, x ∈ pre ++ t := fun x hx => List.mem_append_left _ hx
  have ht : ∀ x ∈ t, x ∈ pre ++ t := fun x hx => List.mem_append_right _ hx
  rw [misses_map Prod.fst cap (· ∈ pre ++ t) (fun x y hx hy e => Prod.ext e ((h x hx y hy).1 e)) t pre ht hp,
    misses_map Prod.snd cap (· ∈ pre ++ t) (fun x y hx hy e => Prod.ext ((h x hx y hy).2 e) e) t pre ht hp]

theorem dedup_alike (z : List (Int × Int)) (h : Alike z) : (z.map Prod.fst).dedup.length = (z.map Prod.snd).dedup.length := by
  have key : ∀ g : Int × Int → Int, (∀ x ∈ z, ∀ y ∈ z, g x = g y → x = y) → (z.map g).dedup.length = z.dedup.length := by
    intro g hg
    rw [← List.card_toFinset, ← List.card_toFinset, show (z.map g).toFinset = z.toFinset.image g by ext x; simp]
    exact Finset.card_image_of_injOn fun x hx y hy e => hg x (by simpa using hx) y (by simpa using hy) e
  rw [key Prod.fst fun x hx y hy e => Prod.ext e ((h x hx y hy).1 e),
    key Prod.snd fun x hx y hy e => Prod.ext ((h x hx y hy).2 e) e]

/-- The same byte of the same array in both layouts. -/
def SameByte (ρ : String → String) (vars : List Arr) (bases bases' : List (String × Int)) (o o' : Int) : Prop :=
  ∃ v ∈ vars, ∃ x b b', 0 ≤ x ∧ x < v.bytes ∧ bases.lookup v.name = some b ∧ bases'.lookup (ρ v.name) = some b' ∧
    o = b + x ∧ o' = b' + x

/-- Arrays do not overlap and begin at multiples of `d`. -/
structure Placed (d : Int) (vars : List Arr) (ρ : String → String) (bases : List (String × Int)) : Prop where
  disjoint : ∀ v ∈ vars, ∀ w ∈ vars, v.name ≠ w.name → ∀ b c, bases.lookup (ρ v.name) = some b →
    bases.lookup (ρ w.name) = some c → b + v.bytes ≤ c ∨ c + w.bytes ≤ b
  aligned : ∀ n b, bases.lookup n = some b → d ∣ b

theorem line_own (d : Int) (b x : Int) (hb : d ∣ b) : (b + x) / d = b / d + x / d := Int.add_ediv_of_dvd_left hb

theorem line_lt (d : Int) (hd : 0 < d) (b n x c y : Int) (hc : d ∣ c) (hx : x < n) (hy : 0 ≤ y) (h : b + n ≤ c) :
    (b + x) / d < (c + y) / d := by
  obtain ⟨k, rfl⟩ := hc
  have h1 : (b + x) / d < k := Int.ediv_lt_of_lt_mul hd (by rw [mul_comm]; omega)
  have h2 : k ≤ (d * k + y) / d := by
    rw [Int.le_ediv_iff_mul_le hd, mul_comm]
    omega
  omega

theorem same_line (d : Int) (hd : 0 < d) (ρ τ : String → String) (vars : List Arr) (hu : UniqueNames vars)
    (bases bases' : List (String × Int)) (hp : Placed d vars ρ bases) (hp' : Placed d vars τ bases') (v w : Arr)
    (hv : v ∈ vars) (hw : w ∈ vars) (x y b c b' c' : Int) (hx : 0 ≤ x ∧ x < v.bytes) (hy : 0 ≤ y ∧ y < w.bytes)
    (hb : bases.lookup (ρ v.name) = some b) (hc : bases.lookup (ρ w.name) = some c)
    (hb' : bases'.lookup (τ v.name) = some b') (hc' : bases'.lookup (τ w.name) = some c')
    (h : (b + x) / d = (c + y) / d) : (b' + x) / d = (c' + y) / d := by
  by_cases hn : v.name = w.name
  · have hvw : v = w := by
      have h1 := find_unique vars hu v hv
      have h2 := find_unique vars hu w hw
      rw [hn] at h1
      exact Option.some_inj.1 (h1.symm.trans h2)
    subst hvw
    rw [hb] at hc
    rw [hb'] at hc'
    cases hc
    cases hc'
    rw [line_own d _ _ (hp.aligned _ _ hb), line_own d _ _ (hp.aligned _ _ hb)] at h
    rw [line_own d _ _ (hp'.aligned _ _ hb'), line_own d _ _ (hp'.aligned _ _ hb')]
    omega
  · rcases hp.disjoint v hv w hw hn b c hb hc with hd' | hd'
    · have := line_lt d hd b _ x c y (hp.aligned _ _ hc) hx.2 hy.1 hd'
      omega
    · have := line_lt d hd c _ y b x (hp.aligned _ _ hb) hy.2 hx.1 hd'
      omega

theorem sameByte_lines (d : Int) (hd : 0 < d) (ρ : String → String) (vars : List Arr) (hu : UniqueNames vars)
    (bases bases' : List (String × Int)) (hp : Placed d vars id bases) (hp' : Placed d vars ρ bases') (o o' q q' : Int)
    (ho : SameByte ρ vars bases bases' o o') (hq : SameByte ρ vars bases bases' q q') : o / d = q / d ↔ o' / d = q' / d := by
  obtain ⟨v, hv, x, b, b', hx0, hx1, hb, hb', rfl, rfl⟩ := ho
  obtain ⟨w, hw, y, c, c', hy0, hy1, hc, hc', rfl, rfl⟩ := hq
  exact ⟨same_line d hd id ρ vars hu bases bases' hp hp' v w hv hw x y b c b' c' ⟨hx0, hx1⟩ ⟨hy0, hy1⟩ hb hc hb' hc',
    same_line d hd ρ id vars hu bases' bases hp' hp v w hv hw x y b' c' b c ⟨hx0, hx1⟩ ⟨hy0, hy1⟩ hb' hc' hb hc⟩

theorem rename_unique (ρ : String → String) (hρ : Function.Injective ρ) (vars : List Arr) (hu : UniqueNames vars) :
    UniqueNames (vars.map (renameArr ρ)) := by
  unfold UniqueNames at *
  rw [List.map_map, show (fun a : Arr => a.name) ∘ renameArr ρ = ρ ∘ (fun a => a.name) from rfl, ← List.map_map]
  exact hu.map hρ

theorem placed_base (ρ : String → String) (hρ : Function.Injective ρ) (vars : List Arr) (hu : UniqueNames vars)
    (hsz : ∀ v ∈ vars, 0 < v.elem ∧ ∀ d ∈ v.dims, 0 ≤ d) (spacing : Int) (hs : 0 ≤ spacing) (k : Nat) (d : Int)
    (hd : d ∣ ((2 ^ k : Nat) : Int)) : Placed d vars ρ (baseOffsets spacing ((2 ^ k : Nat) : Int) (vars.map (renameArr ρ))) := by
  have hsz' : ∀ v ∈ vars.map (renameArr ρ), 0 ≤ v.elem ∧ ∀ d ∈ v.dims, 0 ≤ d := by
    intro v hv
    obtain ⟨w, hw, rfl⟩ := List.mem_map.1 hv
    exact ⟨(hsz w hw).1.le, (hsz w hw).2⟩
  constructor
  · intro v hv w hw hn b c hb hc
    exact C10_regions_disjoint _ (rename_unique ρ hρ vars hu) hsz' spacing _ hs (by exact_mod_cast Nat.one_le_two_pow)
      (renameArr ρ v) (renameArr ρ w) (List.mem_map_of_mem hv) (List.mem_map_of_mem hw) (fun e => hn (hρ e)) b c hb hc
  · intro n b hb
    exact hd.trans (C11_bases_aligned _ hsz' spacing hs k n b (lookup_mem _ _ _ hb))

theorem rename_id (vars : List Arr) : vars.map (renameArr id) = vars := by
  rw [show renameArr id = id from rfl, List.map_id]

theorem lookup_of_mem (l : List (String × Int)) (n : String) (h : n ∈ l.map Prod.fst) : ∃ b, l.lookup n = some b := by
  induction l with
  | nil => simp at h
  | cons p l ih =>
    obtain ⟨m, c⟩ := p
    rw [List.lookup_cons]
    by_cases hm : n = m
    · subst hm; exact ⟨c, by simp⟩
    · rw [show (n == m) = false by simpa using hm]
      exact ih (by simpa [hm] using h)

theorem base_exists (ρ : String → String) (vars : List Arr) (spacing cl : Int) (v : Arr) (hv : v ∈ vars) :
    ∃ b, (baseOffsets spacing cl (vars.map (renameArr ρ))).lookup (ρ v.name) = some b := by
  apply lookup_of_mem
  rw [(C11_every_array_placed _ spacing cl).mem_iff, List.map_map]
  exact List.mem_map.2 ⟨v, hv, rfl⟩

theorem find_rename (ρ : String → String) (hρ : Function.Injective ρ) (vars : List Arr) (n : String) :
    (vars.map (renameArr ρ)).find? (fun v => v.name == ρ n) = (vars.find? (fun v => v.name == n)).map (renameArr ρ) := by
  rw [List.find?_map]
  congr 2
  funext v
  simp [renameArr, hρ.eq_iff]

theorem accessToSympy_rename (ρ : String → String) (hρ : Function.Injective ρ) (vars : List Arr) (n : String) (subs : List Sym) :
    accessToSympy (vars.map (renameArr ρ)) (ρ n) subs = accessToSympy vars n subs := by
  unfold accessToSympy
  rw [find_rename ρ hρ]
  cases vars.find? (fun v => v.name == n) <;> rfl

/-- The same offset in both layouts, as expressions. -/
def SameExpr (ρ : String → String) (vars : List Arr) (accs : List Access) (bases bases' : List (String × Int)) (e e' : Sym) : Prop :=
  ∃ v ∈ vars, ∃ a ∈ accs, a.arr = v.name ∧ ∃ b b', bases.lookup v.name = some b ∧ bases'.lookup (ρ v.name) = some b' ∧
    e = .add (.mul (flattenSymFrom v.dims 0 (.num 0) a.subs) (.num v.elem)) (.num b) ∧
    e' = .add (.mul (flattenSymFrom v.dims 0 (.num 0) a.subs) (.num v.elem)) (.num b')

theorem pairs_rename (ρ : String → String) (hρ : Function.Injective ρ) (vars : List Arr) (accs : List Access) :
    ((vars.map (renameArr ρ)).flatMap fun v =>
      ((accs.map (renameAccess ρ)).filter (fun a => a.arr == v.name)).map (fun a => (v, a))) =
    (vars.flatMap fun v => (accs.filter (fun a => a.arr == v.name)).map (fun a => (v, a))).map
      fun va => (renameArr ρ va.1, renameAccess ρ va.2) := by
  rw [List.flatMap_map, List.map_flatMap]
  congr 1
  funext v
  rw [List.filter_map, List.map_map, List.map_map,
    show (fun a : Access => a.arr == (renameArr ρ v).name) ∘ renameAccess ρ = fun a => a.arr == v.name by
      funext a; simp [renameArr, renameAccess, hρ.eq_iff]]
  rfl

theorem offsetExprs_rename (ρ : String → String) (hρ : Function.Injective ρ) (vars : List Arr) (hu : UniqueNames vars)
    (bases bases' : List (String × Int)) (hb : ∀ v ∈ vars, ∃ b, bases'.lookup (ρ v.name) = some b) (counters : List String)
    (accs : List Access) (es : List Sym) (h : offsetExprs vars bases counters accs = .ok es) :
    ∃ es', offsetExprs (vars.map (renameArr ρ)) bases' counters (accs.map (renameAccess ρ)) = .ok es' ∧
      List.Forall₂ (SameExpr ρ vars accs bases bases') es es' := by
  unfold offsetExprs at h ⊢
  rw [pairs_rename ρ hρ]
  have hsub : ∀ va ∈ vars.flatMap (fun v => (accs.filter (fun a => a.arr == v.name)).map (fun a => (v, a))),
      va.1 ∈ vars ∧ va.2 ∈ accs ∧ va.2.arr = va.1.name := by
    intro va hva
    simp only [List.mem_flatMap, List.mem_map, List.mem_filter, beq_iff_eq] at hva
    obtain ⟨v, hv, a, ⟨ha, he⟩, rfl⟩ := hva
    exact ⟨hv, ha, he⟩
  revert h hsub
  generalize vars.flatMap (fun v => (accs.filter (fun a => a.arr == v.name)).map (fun a => (v, a))) = l
  induction l generalizing es with
  | nil =>
    intro h _
    simp only [List.foldrM_nil, pure, Except.pure, Except.ok.injEq] at h
    subst h
    exact ⟨[], rfl, .nil⟩
  | cons va l ih =>
    intro h hsub
    rw [List.foldrM_cons] at h
    rw [List.map_cons, List.foldrM_cons]
    simp only [bind, Except.bind] at h ih ⊢
    split at h
    · simp at h
    · rename_i rest hrest
      obtain ⟨h1, h2, h3⟩ := hsub va (by simp)
      obtain ⟨es', he', hf⟩ := ih rest hrest (fun x hx => hsub x (by simp [hx]))
      rw [he']
      simp only
      rw [show (renameArr ρ va.1).name = ρ va.1.name from rfl, show (renameAccess ρ va.2).subs = va.2.subs from rfl,
        accessToSympy_rename ρ hρ]
      simp only [accessToSympy, find_unique vars hu _ h1] at h ⊢
      split at h
      · rename_i hc
        rw [if_pos hc]
        split at h
        · simp at h
        · rename_i b hbb
          obtain ⟨b', hb'⟩ := hb va.1 h1
          simp only [Except.ok.injEq] at h
          subst h
          rw [hb']
          exact ⟨_, rfl, .cons ⟨va.1, h1, va.2, h2, h3, b, b', hbb, hb', rfl, rfl⟩ hf⟩
      · rename_i hc
        rw [if_neg hc]
        simp only [Except.ok.injEq] at h
        subst h
        exact ⟨_, rfl, hf⟩

theorem eval_same (ρ : String → String) (vars : List Arr) (hsz : ∀ v ∈ vars, 0 < v.elem ∧ ∀ d ∈ v.dims, 0 ≤ d)
    (accs : List Access) (bases bases' : List (String × Int)) (env : String → Option Int) (hr : ∀ a ∈ accs, AccessInRange vars env a)
    (e e' : Sym) (he : SameExpr ρ vars accs bases bases' e e') (o : Int) (h : e.eval env = some o) :
    ∃ o', e'.eval env = some o' ∧ SameByte ρ vars bases bases' o o' := by
  obtain ⟨v, hv, a, ha, hn, b, b', hb, hb', rfl, rfl⟩ := he
  simp only [Sym.eval, Option.bind_eq_bind] at h ⊢
  cases hfl : Sym.eval env (flattenSymFrom v.dims 0 (.num 0) a.subs) with
  | none => simp [hfl] at h
  | some z =>
    simp [hfl] at h
    obtain ⟨a0, vals, h1, h2, h3⟩ := flattenSymFrom_eval _ _ _ _ _ _ hfl
    simp [Sym.eval] at h1
    have hz : z = flatten v.dims vals := by rw [h3, ← h1]; rfl
    obtain ⟨hz0, hz1⟩ := C08_in_bounds _ _ (hr a ha v hv hn.symm vals h2)
    rw [← hz] at hz0 hz1
    refine ⟨z * v.elem + b', by simp, v, hv, z * v.elem, b, b', Int.mul_nonneg hz0 (hsz v hv).1.le, ?_, hb, hb', by omega, by omega⟩
    rw [Arr.bytes]
    exact Int.mul_lt_mul_of_pos_right hz1 (hsz v hv).1

theorem evalAll_same (ρ : String → String) (vars : List Arr) (hsz : ∀ v ∈ vars, 0 < v.elem ∧ ∀ d ∈ v.dims, 0 ≤ d)
    (accs : List Access) (bases bases' : List (String × Int)) (env : String → Option Int) (hr : ∀ a ∈ accs, AccessInRange vars env a)
    (es es' : List Sym) (he : List.Forall₂ (SameExpr ρ vars accs bases bases') es es') (os : List Int) (h : evalAll env es = .ok os) :
    ∃ os', evalAll env es' = .ok os' ∧ List.Forall₂ (SameByte ρ vars bases bases') os os' := by
  induction he generalizing os with
  | nil => simp only [evalAll, Except.ok.injEq] at h; subst h; exact ⟨[], rfl, .nil⟩
  | @cons e e' es es' hc _ ih =>
    rw [evalAll] at h
    split at h
    · simp at h
    · rename_i o ho
      obtain ⟨o', ho', hs⟩ := eval_same ρ vars hsz accs bases bases' env hr e e' hc o ho
      simp only [bind, Except.bind] at h
      split at h
      · simp at h
      · rename_i rest hrest
        simp only [Except.ok.injEq] at h
        subst h
        obtain ⟨os', hos', hf⟩ := ih rest hrest
        refine ⟨o' :: os', ?_, .cons hs hf⟩
        rw [evalAll, ho']
        simp only [bind, Except.bind, hos']

theorem iterOffsets_same (ρ : String → String) (vars : List Arr) (hsz : ∀ v ∈ vars, 0 < v.elem ∧ ∀ d ∈ v.dims, 0 ≤ d)
    (accs : List Access) (bases bases' : List (String × Int)) (counters : List String) (loops : List Iteration.Loop)
    (consts : String → Option Int) (it : Int)
    (hr : ∀ idx, Iteration.globalIteratorToIndices loops it = some idx → ∀ a ∈ accs, AccessInRange vars (mkEnv counters idx consts) a)
    (es es' : List Sym) (he : List.Forall₂ (SameExpr ρ vars accs bases bases') es es') (os : List Int)
    (h : iterOffsets counters loops consts es it = .ok os) :
    ∃ os', iterOffsets counters loops consts es' it = .ok os' ∧ List.Forall₂ (SameByte ρ vars bases bases') os os' := by
  unfold iterOffsets at h ⊢
  split at h
  · simp at h
  · rename_i idx hidx
    exact evalAll_same ρ vars hsz accs bases bases' _ (hr idx hidx) es es' he os h

/-- Both layouts yield the same bytes of the same arrays. -/
theorem compile_same (ρ : String → String) (hρ : Function.Injective ρ) (vars : List Arr) (hu : UniqueNames vars)
    (hsz : ∀ v ∈ vars, 0 < v.elem ∧ ∀ d ∈ v.dims, 0 ≤ d) (counters : List String) (loops : List Iteration.Loop)
    (consts : String → Option Int) (sources dests : List Access) (spacing cl : Int) (iters : List Int)
    (hr : ∀ it ∈ iters, ∀ idx, Iteration.globalIteratorToIndices loops it = some idx → ∀ a ∈ sources ++ dests,
      AccessInRange vars (mkEnv counters idx consts) a)
    (res : List (List Int × List Int))
    (h : compileGlobalOffsets vars counters loops consts sources dests spacing cl iters = .ok res) :
    ∃ res', compileGlobalOffsets (vars.map (renameArr ρ)) counters loops consts (sources.map (renameAccess ρ))
        (dests.map (renameAccess ρ)) spacing cl iters = .ok res' ∧
      List.Forall₂ (fun r r' : List Int × List Int =>
        List.Forall₂ (SameByte ρ vars (baseOffsets spacing cl vars) (baseOffsets spacing cl (vars.map (renameArr ρ)))) r.1 r'.1 ∧
        List.Forall₂ (SameByte ρ vars (baseOffsets spacing cl vars) (baseOffsets spacing cl (vars.map (renameArr ρ)))) r.2 r'.2)
        res res' := by
  have hb : ∀ v ∈ vars, ∃ b, (baseOffsets spacing cl (vars.map (renameArr ρ))).lookup (ρ v.name) = some b :=
    fun v hv => base_exists ρ vars spacing cl v hv
  unfold compileGlobalOffsets at h ⊢
  simp only [bind, Except.bind] at h ⊢
  split at h
  · simp at h
  rename_i hcheck
  split at h
  · simp at h
  rename_i loads hloads
  obtain ⟨loads', hloads', hlf⟩ := offsetExprs_rename ρ hρ vars hu _ _ hb counters sources loads hloads
  rw [hloads']
  split at h
  · simp at h
  rename_i stores hstores
  obtain ⟨stores', hstores', hsf⟩ := offsetExprs_rename ρ hρ vars hu _ _ hb counters dests stores hstores
  rw [hstores']
  simp only
  clear hcheck hloads hstores hloads' hstores'
  induction iters generalizing res with
  | nil => simp [pure, Except.pure] at h; subst h; exact ⟨[], rfl, .nil⟩
  | cons it its ih =>
    rw [List.mapM_cons] at h ⊢
    simp only [bind, Except.bind] at h ih ⊢
    split at h
    · simp at h
    rename_i r hr1
    split at h
    · simp at h
    rename_i rest hrest
    simp only [pure, Except.pure, Except.ok.injEq] at h
    subst h
    split at hr1
    · simp at hr1
    rename_i l hl
    split at hr1
    · simp at hr1
    rename_i s hs
    simp only [Except.ok.injEq] at hr1
    subst hr1
    obtain ⟨l', hl', hl2⟩ := iterOffsets_same ρ vars hsz sources _ _ counters loops consts it
      (fun idx hi a ha => hr it (by simp) idx hi a (by simp [ha])) loads loads' hlf l hl
    obtain ⟨s', hs', hs2⟩ := iterOffsets_same ρ vars hsz dests _ _ counters loops consts it
      (fun idx hi a ha => hr it (by simp) idx hi a (by simp [ha])) stores stores' hsf s hs
    obtain ⟨res', hres', hf⟩ := ih (fun j hj => hr j (by simp [hj])) rest hrest
    rw [hl', hs']
    simp only [hres', pure, Except.pure]
    exact ⟨_, rfl, .cons ⟨hl2, hs2⟩ hf⟩

theorem forall₂_flatMap {α β : Type} {R : α → α → Prop} {S : β → β → Prop} (f : α → List β)
    (hf : ∀ a b, R a b → List.Forall₂ S (f a) (f b)) {l l' : List α} (h : List.Forall₂ R l l') :
    List.Forall₂ S (l.flatMap f) (l'.flatMap f) := by
  induction h with
  | nil => exact .nil
  | cons hc _ ih =>
    rw [List.flatMap_cons, List.flatMap_cons]
    exact List.rel_append (hf _ _ hc) ih

theorem alike_zip (d : Int) (S : Int → Int → Prop) (hS : ∀ o o' q q', S o o' → S q q' → (o / d = q / d ↔ o' / d = q' / d))
    (l l' : List Int) (h : List.Forall₂ S l l') : Alike ((l.map (· / d)).zip (l'.map (· / d))) := by
  have key : ∀ x ∈ (l.map (· / d)).zip (l'.map (· / d)), ∃ o o', S o o' ∧ x = (o / d, o' / d) := by
    induction h with
    | nil => simp
    | @cons o o' _ _ hc _ ih =>
      intro x hx
      simp only [List.map_cons, List.zip_cons_cons, List.mem_cons] at hx
      rcases hx with rfl | hx
      · exact ⟨o, o', hc, rfl⟩
      · exact ih x hx
  intro x hx y hy
  obtain ⟨o, o', h1, rfl⟩ := key x hx
  obtain ⟨q, q', h2, rfl⟩ := key y hy
  exact hS o o' q q' h1 h2

/-- The zip of both traces, and its halves. -/
theorem zip_halves (d : Int) {S : Int → Int → Prop} {l l' : List Int} (h : List.Forall₂ S l l') :
    ((l.map (· / d)).zip (l'.map (· / d))).map Prod.fst = l.map (· / d) ∧
    ((l.map (· / d)).zip (l'.map (· / d))).map Prod.snd = l'.map (· / d) := by
  have hl := h.length_eq
  exact ⟨List.map_fst_zip (by simp [hl]), List.map_snd_zip (by simp [hl])⟩

theorem misses_same (d : Int) (S : Int → Int → Prop) (hS : ∀ o o' q q', S o o' → S q q' → (o / d = q / d ↔ o' / d = q' / d))
    {res res' : List (List Int × List Int)} (hf : List.Forall₂ (fun r r' => List.Forall₂ S r.1 r'.1 ∧ List.Forall₂ S r.2 r'.2) res res')
    (cap n : Nat) : misses cap (lines d (res'.take n)) (lines d (res'.drop n)) =
      misses cap (lines d (res.take n)) (lines d (res.drop n)) := by
  have hfl : ∀ {r r' : List (List Int × List Int)},
      List.Forall₂ (fun r r' : List Int × List Int => List.Forall₂ S r.1 r'.1 ∧ List.Forall₂ S r.2 r'.2) r r' →
      List.Forall₂ S (r.flatMap fun x => x.1 ++ x.2) (r'.flatMap fun x => x.1 ++ x.2) :=
    fun hh => forall₂_flatMap _ (fun a b hab => List.rel_append hab.1 hab.2) hh
  have h1 := hfl (List.forall₂_take n hf)
  have h2 := hfl (List.forall₂_drop n hf)
  have ha := alike_zip _ _ hS _ _ (List.rel_append h1 h2)
  rw [List.map_append, List.map_append, List.zip_append (by simp [h1.length_eq])] at ha
  have := misses_alike cap _ _ ha
  rw [(zip_halves _ h1).1, (zip_halves _ h1).2, (zip_halves _ h2).1, (zip_halves _ h2).2] at this
  exact this.symm

theorem elements_same (S : Int → Int → Prop) (hS : ∀ o o' q q', S o o' → S q q' → (o / 1 = q / 1 ↔ o' / 1 = q' / 1))
    {res res' : List (List Int × List Int)} (hf : List.Forall₂ (fun r r' => List.Forall₂ S r.1 r'.1 ∧ List.Forall₂ S r.2 r'.2) res res') :
    (res'.flatMap (·.1)).dedup.length = (res.flatMap (·.1)).dedup.length ∧
    (res'.flatMap (·.2)).dedup.length = (res.flatMap (·.2)).dedup.length := by
  have key : ∀ {l l' : List Int}, List.Forall₂ S l l' → l'.dedup.length = l.dedup.length := by
    intro l l' hl
    have := dedup_alike _ (alike_zip 1 _ hS _ _ hl)
    rw [(zip_halves 1 hl).1, (zip_halves 1 hl).2] at this
    simpa using this.symm
  exact ⟨key (forall₂_flatMap _ (fun a b hab => hab.1) hf), key (forall₂_flatMap _ (fun a b hab => hab.2) hf)⟩

end Verif.Names
