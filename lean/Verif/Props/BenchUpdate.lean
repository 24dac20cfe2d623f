import Verif.Model.BenchUpdate
import Verif.Spec.Groups
import Mathlib.Tactic.Linarith
import Mathlib.Tactic.NormNum
import Mathlib.Tactic.FieldSimp
import Mathlib.Tactic.Ring
import Mathlib.Tactic.Positivity

/-!
C88: working sets of benchmarks. C89: outdated benchmarks. C90: measuring.
-/

namespace Verif.BenchUpdate

open Verif.Spec

theorem groups_pos (c g : Nat) (hg : 0 < g) (hc : 0 < c) : 0 < groups c g := by
  unfold groups
  exact Nat.div_pos (by omega) hg

theorem le_groups_mul (c g : Nat) (hg : 0 < g) : c ≤ groups c g * g := by
  unfold groups
  have := Nat.div_add_mod (c + g - 1) g
  have := Nat.mod_lt (c + g - 1) hg
  rw [mul_comm]
  omega

theorem groups_eq (c g : Nat) (hg : 0 < g) (hc : 0 < c) (h : g ∣ c ∨ c ≤ g) : max (c : ℚ) g = groups c g * g := by
  rcases h with ⟨k, rfl⟩ | h
  · have hk : 0 < k := by
      rcases Nat.eq_zero_or_pos k with rfl | h
      · simp at hc
      · exact h
    have e : groups (g * k) g = k := by
      unfold groups
      rw [Nat.add_sub_assoc hg, Nat.mul_add_div hg, Nat.div_eq_of_lt (by omega), Nat.add_zero]
    rw [e, max_eq_left]
    · push_cast; ring
    · exact_mod_cast Nat.le_mul_of_pos_right g hk
  · have e : groups c g = 1 := by
      unfold groups
      rw [Nat.div_eq_iff hg]
      omega
    rw [e, max_eq_right (by exact_mod_cast h)]
    simp

theorem share_scaled (s g c : Nat) (hg : 0 < g) : max ((s : ℚ) * c / g) s = s / g * max (c : ℚ) g := by
  have hg' : (0 : ℚ) < g := by exact_mod_cast hg
  rw [mul_max_of_nonneg _ _ (by positivity)]
  congr 1
  · ring
  · field_simp

theorem share_le_capacity (s g c : Nat) (hg : 0 < g) (hc : 0 < c) : max ((s : ℚ) * c / g) s ≤ capacity s g c := by
  have hg' : (0 : ℚ) < g := by exact_mod_cast hg
  have h1 : (c : ℚ) ≤ groups c g * g := by exact_mod_cast le_groups_mul c g hg
  have h2 : (1 : ℚ) ≤ groups c g := by exact_mod_cast groups_pos c g hg hc
  have hs : (0 : ℚ) ≤ s := by positivity
  unfold capacity
  push_cast
  apply max_le
  · rw [div_le_iff₀ hg']; nlinarith
  · nlinarith

theorem share_eq_capacity (s g c : Nat) (hg : 0 < g) (hc : 0 < c) (h : g ∣ c ∨ c ≤ g) :
    max ((s : ℚ) * c / g) s = capacity s g c := by
  have hg' : (g : ℚ) ≠ 0 := by exact_mod_cast hg.ne'
  rw [share_scaled s g c hg, groups_eq c g hg hc h]
  unfold capacity
  push_cast
  field_simp

/-- Working set of a cache. -/
theorem totalSize_cache (levels : List Level) (i c : Nat) (l p : Level) (s q : Nat) (hl : levels[i + 1]? = some l)
    (hp : levels[i]? = some p) (hs : l.size = some s) (hq : p.size = some q) (hlc : 0 < l.cores) (hpc : 0 < p.cores) :
    totalSize levels (i + 1) c = .ok (max (max ((s : ℚ) * c / l.cores) s * (66 / 100))
      (max ((q : ℚ) * c / p.cores) q * (1 + 2 / 10))) := by
  have e : previous levels (i + 1) = p := by simp [previous, List.getD_eq_getElem?_getD, hp]
  simp [totalSize, hl, hs, e, hq, share, hlc.ne', hpc.ne', bind, Except.bind]

/-! ### C88 -/

/-- C88, partial: the working set for a cache exceeds everything that the cores hold in the previous cache. Missing: numbers
of cores that fill some groups only in part (`C88_negation_groups`). -/
theorem C88_exceeds_previous_partial (levels : List Level) (i c : Nat) (l p : Level) (s q : Nat)
    (hl : levels[i + 1]? = some l) (hp : levels[i]? = some p) (hs : l.size = some s) (hq : p.size = some q)
    (hlc : 0 < l.cores) (hpc : 0 < p.cores) (hc : 0 < c) (hq0 : 0 < q) (hg : p.cores ∣ c ∨ c ≤ p.cores) :
    ∃ t, totalSize levels (i + 1) c = .ok t ∧ (capacity q p.cores c : ℚ) < t := by
  refine ⟨_, totalSize_cache levels i c l p s q hl hp hs hq hlc hpc, ?_⟩
  rw [share_eq_capacity q p.cores c hpc hc hg]
  apply lt_max_of_lt_right
  have : 0 < capacity q p.cores c := Nat.mul_pos (groups_pos c _ hpc hc) hq0
  have : (0 : ℚ) < capacity q p.cores c := by exact_mod_cast this
  linarith

/-- C88, partial: the working set for a cache fits into the caches of that level that the cores use. Missing: levels that
are hardly larger than the previous one (`C88_negation_small`). -/
theorem C88_fits_partial (levels : List Level) (i c : Nat) (l p : Level) (s q : Nat)
    (hl : levels[i + 1]? = some l) (hp : levels[i]? = some p) (hs : l.size = some s) (hq : p.size = some q)
    (hlc : 0 < l.cores) (hpc : 0 < p.cores) (hc : 0 < c)
    (hlarge : (capacity q p.cores c : ℚ) * (12 / 10) ≤ capacity s l.cores c) :
    ∃ t, totalSize levels (i + 1) c = .ok t ∧ t ≤ capacity s l.cores c := by
  refine ⟨_, totalSize_cache levels i c l p s q hl hp hs hq hlc hpc, ?_⟩
  have h1 := share_le_capacity s l.cores c hlc hc
  have h2 := share_le_capacity q p.cores c hpc hc
  have h0 : (0 : ℚ) ≤ capacity s l.cores c := by positivity
  apply max_le <;> linarith

/-- C88: the working set for the first cache is positive and fits into the caches that the cores use. -/
theorem C88_first_level (levels : List Level) (c : Nat) (l : Level) (s : Nat) (hl : levels[0]? = some l)
    (hs : l.size = some s) (hlc : 0 < l.cores) (hc : 0 < c) (hs0 : 0 < s) :
    ∃ t, totalSize levels 0 c = .ok t ∧ 0 < t ∧ t ≤ capacity s l.cores c := by
  have h0 : (0 : ℚ) < s := by exact_mod_cast hs0
  have h1 := share_le_capacity s l.cores c hlc hc
  have h2 : (s : ℚ) ≤ max ((s : ℚ) * c / l.cores) s := le_max_right _ _
  refine ⟨max (max ((s : ℚ) * c / l.cores) s * (66 / 100)) 0, ?_, ?_, ?_⟩
  · simp [totalSize, hl, hs, previous, share, hlc.ne', bind, Except.bind]
  · apply lt_max_of_lt_left; linarith
  · apply max_le <;> linarith

/-- C88, partial: the working set for main memory exceeds the last cache. Missing: fifteen or more groups of cores
(`C88_negation_memory`). -/
theorem C88_memory_partial (ls : List Level) (p m : Level) (q c : Nat) (hm : m.size = none) (hq : p.size = some q)
    (hq0 : 0 < q) (hg : groups c p.cores < 15) :
    ∃ t, totalSize (ls ++ [p, m]) (ls.length + 1) c = .ok t ∧ (capacity q p.cores c : ℚ) < t := by
  refine ⟨(q : ℚ) * 15, ?_, ?_⟩
  · have h1 : (ls ++ [p, m])[ls.length + 1]? = some m := by simp
    have h2 : (ls ++ [p, m]).getD ((ls ++ [p, m]).length - 2) ⟨none, 0⟩ = p := by
      simp [List.getD_eq_getElem?_getD]
    simp only [totalSize, h1, hm, h2, hq]
    rw [if_neg (by simp)]
  · have : capacity q p.cores c < q * 15 := by
      unfold capacity
      rw [mul_comm]
      exact Nat.mul_lt_mul_of_pos_left hg hq0
    exact_mod_cast this

/-- C88: the exact condition for main memory. The working set exceeds the caches before it if and only if these are fewer than fifteen. -/
theorem C88_memory_iff (ls : List Level) (p m : Level) (q c : Nat) (hm : m.size = none) (hq : p.size = some q) (hq0 : 0 < q) :
    (∃ t, totalSize (ls ++ [p, m]) (ls.length + 1) c = .ok t ∧ (capacity q p.cores c : ℚ) < t) ↔ groups c p.cores < 15 := by
  refine ⟨?_, C88_memory_partial ls p m q c hm hq hq0⟩
  rintro ⟨t, ht, hlt⟩
  have h1 : (ls ++ [p, m])[ls.length + 1]? = some m := by simp
  have h2 : (ls ++ [p, m]).getD ((ls ++ [p, m]).length - 2) ⟨none, 0⟩ = p := by
    simp [List.getD_eq_getElem?_getD]
  simp only [totalSize, h1, hm, h2, hq] at ht
  rw [if_neg (by simp), Except.ok.injEq] at ht
  subst ht
  have : capacity q p.cores c < q * 15 := by exact_mod_cast hlt
  unfold capacity at this
  rw [mul_comm q 15] at this
  exact lt_of_mul_lt_mul_right this (Nat.zero_le q)

/-- Fourteen and fifteen private caches. -/
example : (∃ t, totalSize [⟨some 1000, 1⟩, ⟨none, 20⟩] 1 14 = .ok t ∧ (capacity 1000 1 14 : ℚ) < t) ∧
    ¬ ∃ t, totalSize [⟨some 1000, 1⟩, ⟨none, 20⟩] 1 15 = .ok t ∧ (capacity 1000 1 15 : ℚ) < t := by
  constructor
  · exact (C88_memory_iff [] ⟨some 1000, 1⟩ ⟨none, 20⟩ 1000 14 rfl rfl (by decide)).2 (by decide)
  · exact fun h => absurd ((C88_memory_iff [] ⟨some 1000, 1⟩ ⟨none, 20⟩ 1000 15 rfl rfl (by decide)).1 h) (by decide)

theorem mapM_ok {A B : Type} (f : A → Except String B) (l : List A) (r : List B) (h : l.mapM f = .ok r) :
    r.length = l.length ∧ ∀ (i : Nat) (x : A), l[i]? = some x → ∃ y, r[i]? = some y ∧ f x = .ok y := by
  induction l generalizing r with
  | nil =>
    simp only [List.mapM_nil, pure, Except.pure, Except.ok.injEq] at h
    subst h; simp
  | cons a l ih =>
    simp only [List.mapM_cons, bind, Except.bind, pure, Except.pure] at h
    split at h
    · simp at h
    · rename_i y hy
      split at h
      · simp at h
      · rename_i ys hys
        simp only [Except.ok.injEq] at h
        subst h
        obtain ⟨h1, h2⟩ := ih ys hys
        refine ⟨by simp [h1], fun i x hx => ?_⟩
        cases i with
        | zero => simp only [List.getElem?_cons_zero, Option.some.injEq] at hx; subst hx; exact ⟨y, rfl, hy⟩
        | succ i => simpa using h2 i x (by simpa using hx)

/-- C88: there is one working set for every number of cores, and the sizes per core and thread that are stored with it add up to it. -/
theorem C88_sizes (levels : List Level) (i cores tpc : Nat) (ts : List ℚ) (h : totalSizes levels i cores = .ok ts) (ht : 0 < tpc) :
    ts.length = cores ∧ ∀ c < cores, ∃ t pc pt, ts[c]? = some t ∧ totalSize levels i (c + 1) = .ok t ∧
      (∃ l, (sizesDict tpc cores ts).lookup "size per core" = some (.list l) ∧ l[c]? = some pc ∧ pc * (c + 1) = t) ∧
      (∃ l, (sizesDict tpc cores ts).lookup "size per thread" = some (.list l) ∧ l[c]? = some pt ∧ pt * ((c + 1) * tpc) = t) := by
  obtain ⟨h1, h2⟩ := mapM_ok _ _ _ h
  have h1 : ts.length = cores := by simpa using h1
  refine ⟨h1, fun c hc => ?_⟩
  have hr : (List.range' 1 cores)[c]? = some (c + 1) := by
    rw [List.getElem?_range' hc]; simp; omega
  obtain ⟨t, e1, e2⟩ := h2 c (c + 1) hr
  have hz : (ts.zip (List.range' 1 cores))[c]? = some (t, c + 1) := by
    rw [List.getElem?_zip_eq_some]; exact ⟨e1, hr⟩
  have hc0 : ((c : ℚ) + 1) ≠ 0 := by positivity
  have ht0 : (tpc : ℚ) ≠ 0 := by exact_mod_cast ht.ne'
  refine ⟨t, t / (c + 1), t / ((c + 1) * tpc), e1, e2, ⟨_, rfl, ?_, ?_⟩, ⟨_, rfl, ?_, ?_⟩⟩
  · rw [List.getElem?_map, hz]; simp
  · field_simp
  · rw [List.getElem?_map, hz]; simp
  · field_simp

/-- Caches of 32 kB, 256 kB per core and 20 MB for 8 cores. -/
def example3 : List Level := [⟨some 32000, 1⟩, ⟨some 256000, 1⟩, ⟨some 20000000, 8⟩, ⟨none, 8⟩]

example : totalSizes example3 0 2 = .ok [21120, 42240] := by decide +kernel
example : totalSizes example3 1 2 = .ok [168960, 337920] := by decide +kernel
example : totalSizes example3 3 2 = .ok [300000000, 300000000] := by decide +kernel
example : (capacity 32000 1 2 : ℚ) * (12 / 10) ≤ capacity 256000 1 2 := by decide +kernel

/-- C88, negation: with groups of four cores, five cores use two caches, but the working set of the next level is smaller
than these. -/
theorem C88_negation_groups : ∃ t, totalSize [⟨some 1000, 4⟩, ⟨some 1500, 8⟩] 1 5 = .ok t ∧ t < capacity 1000 4 5 :=
  ⟨1500, by decide +kernel, by decide +kernel⟩

/-- C88, negation: the working set does not fit into a level that is as large as the previous one. -/
theorem C88_negation_small : ∃ t, totalSize [⟨some 1000, 1⟩, ⟨some 1000, 1⟩] 1 1 = .ok t ∧ capacity 1000 1 1 < t :=
  ⟨1200, by decide +kernel, by decide +kernel⟩

/-- C88, negation: with twenty private caches the working set for main memory fits into the caches. -/
theorem C88_negation_memory : ∃ t, totalSize [⟨some 1000000, 1⟩, ⟨none, 20⟩] 1 20 = .ok t ∧ t < capacity 1000000 1 20 :=
  ⟨15000000, by decide +kernel, by decide +kernel⟩

/-! ### C89 -/

/-- Do all sizes of an entry agree with the current ones? -/
def Current (new : List (String × Val)) (o : Entry) : Prop := ∀ k v, new.lookup k = some v → o.sizes.lookup k = some v

/-- An entry has all keys. -/
def Complete (new : List (String × Val)) (o : Entry) : Prop :=
  (∀ kv ∈ new, (o.sizes.lookup kv.1).isSome) ∧ o.results.isSome ∧ o.stats.isSome

theorem lookup_self (new : List (String × Val)) (hnd : (new.map Prod.fst).Nodup) (k : String) (v : Val)
    (h : (k, v) ∈ new) : new.lookup k = some v := by
  induction new with
  | nil => simp at h
  | cons x l ih =>
    obtain ⟨a, b⟩ := x
    simp only [List.map_cons, List.nodup_cons] at hnd
    rcases List.mem_cons.1 h with e | hm
    · cases e; simp [List.lookup]
    · have : k ≠ a := by
        rintro rfl
        exact hnd.1 (List.mem_map_of_mem (f := Prod.fst) hm)
      rw [List.lookup_cons, show (k == a) = false by simpa using this]
      exact ih hnd.2 hm

theorem needsUpdate_eq (new : List (String × Val)) (hnd : (new.map Prod.fst).Nodup) (o : Entry)
    (l : List (String × Val)) (hl : ∀ x ∈ l, x ∈ new) :
    needsUpdate new o l = .ok (l.any fun x => (o.sizes.lookup x.1).isNone) := by
  induction l with
  | nil => rfl
  | cons x l ih =>
    obtain ⟨k, v⟩ := x
    have ih := ih fun y hy => hl y (by simp [hy])
    unfold needsUpdate
    by_cases h : (o.sizes.lookup k).isSome = true
    · rw [if_pos h, lookup_self new hnd k v (hl _ (by simp))]
      simp only [differs, if_true, ih, Except.map, Bool.false_or, List.any_cons]
      rw [Option.isSome_iff_ne_none] at h
      simp [h]
    · rw [if_neg h]
      simp only [Bool.not_eq_true, Option.isSome_eq_false_iff] at h
      simp [h]

/-- C89: an entry is replaced if and only if a key, the results or the repetitions are missing, whatever the sizes are. -/
theorem C89_replaced_iff_incomplete (new : List (String × Val)) (hnd : (new.map Prod.fst).Nodup) (o : Entry) :
    (Complete new o → update false new (some o) = .ok o) ∧
    (¬ Complete new o → update false new (some o) = .ok ⟨new, some [], some []⟩) := by
  have e := needsUpdate_eq new hnd o new fun _ h => h
  simp only [update, e, Bool.false_or]
  constructor
  · rintro ⟨h1, h2, h3⟩
    rw [if_neg]
    simp only [Bool.or_eq_true, List.any_eq_true, not_or, not_exists, not_and]
    refine ⟨⟨fun x hx => ?_, ?_⟩, ?_⟩
    · have := h1 x hx
      rw [Option.isSome_iff_ne_none] at this
      simpa using this
    · rw [Option.isSome_iff_ne_none] at h2; simpa using h2
    · rw [Option.isSome_iff_ne_none] at h3; simpa using h3
  · intro h
    rw [if_pos]
    by_contra hn
    apply h
    simp only [Bool.or_eq_true, List.any_eq_true, not_or, not_exists, not_and] at hn
    refine ⟨fun x hx => ?_, ?_, ?_⟩
    · have := hn.1.1 x hx
      rw [Option.isSome_iff_ne_none]; simpa using this
    · rw [Option.isSome_iff_ne_none]; simpa using hn.1.2
    · rw [Option.isSome_iff_ne_none]; simpa using hn.2

theorem sizesDict_nodup (tpc cores : Nat) (total : List ℚ) : ((sizesDict tpc cores total).map Prod.fst).Nodup := by
  simp [sizesDict]

/-- C89, partial: current complete entries are kept, and entries without a key are replaced by ones with the current sizes.
Missing: complete entries with other sizes (`C89_negation`). -/
theorem C89_current_partial (tpc cores : Nat) (total : List ℚ) (o : Entry)
    (h : Complete (sizesDict tpc cores total) o → Current (sizesDict tpc cores total) o) :
    ∃ e, update false (sizesDict tpc cores total) (some o) = .ok e ∧ Current (sizesDict tpc cores total) e := by
  have hh := C89_replaced_iff_incomplete _ (sizesDict_nodup tpc cores total) o
  by_cases hc : Complete (sizesDict tpc cores total) o
  · exact ⟨o, hh.1 hc, h hc⟩
  · exact ⟨_, hh.2 hc, fun k v hv => hv⟩

/-- An entry for one core and 1000 bytes. -/
def stored : Entry := ⟨sizesDict 1 1 [1000], some [("load", [5])], some [("load", [[5]])]⟩

example : Complete (sizesDict 1 1 [1000]) stored ∧ Current (sizesDict 1 1 [1000]) stored :=
  ⟨⟨by decide +kernel, rfl, rfl⟩, fun _ _ h => h⟩
/-- Without results it is replaced. -/
example : update false (sizesDict 1 1 [2000]) (some ⟨sizesDict 1 1 [1000], none, some []⟩) =
    .ok ⟨sizesDict 1 1 [2000], some [], some []⟩ := by decide +kernel

/-- C89, negation: after the working set has doubled, the old entry with its results is kept. -/
theorem C89_negation : ∃ new o, Complete new o ∧ update false new (some o) = .ok o ∧
    o.sizes.lookup "total size" = some (.list [1000]) ∧ new.lookup "total size" = some (.list [2000]) :=
  ⟨sizesDict 1 1 [2000], stored, ⟨by decide +kernel, rfl, rfl⟩, by decide +kernel, by decide +kernel, by decide +kernel⟩

/-! ### C90 -/

theorem foldl_max_mem (xs : List ℚ) (x : ℚ) : xs.foldl max x ∈ x :: xs ∧ ∀ y ∈ x :: xs, y ≤ xs.foldl max x := by
  induction xs generalizing x with
  | nil => simp
  | cons a xs ih =>
    obtain ⟨h1, h2⟩ := ih (max x a)
    rw [List.foldl_cons]
    constructor
    · rcases List.mem_cons.1 h1 with h | h
      · rcases max_choice x a with e | e <;> rw [h, e] <;> simp
      · simp [h]
    · intro y hy
      have hm := h2 (max x a) (by simp)
      rcases List.mem_cons.1 hy with rfl | hy
      · exact (le_max_left _ _).trans hm
      · rcases List.mem_cons.1 hy with rfl | hy
        · exact (le_max_right _ _).trans hm
        · exact h2 y (by simp [hy])

/-- The best of the repetitions for a working set. -/
def Best (reps : Nat) (bench : Nat → Nat → ℚ) (i : Nat) (m : ℚ) : Prop :=
  (∃ r < reps, m = bench i r) ∧ ∀ r < reps, bench i r ≤ m

theorem maximum_best (reps : Nat) (h : 0 < reps) (bench : Nat → Nat → ℚ) (i : Nat) :
    ∃ m, maximum ((List.range reps).map (bench i)) = .ok m ∧ Best reps bench i m := by
  cases hl : (List.range reps).map (bench i) with
  | nil => simp at hl; omega
  | cons x xs =>
    obtain ⟨h1, h2⟩ := foldl_max_mem xs x
    rw [← hl] at h1 h2
    refine ⟨_, rfl, ?_, fun r hr => h2 _ (List.mem_map_of_mem (List.mem_range.2 hr))⟩
    obtain ⟨r, hr, e⟩ := List.mem_map.1 h1
    exact ⟨r, List.mem_range.1 hr, e.symm⟩

/-- Measuring from empty lists. -/
theorem measure_empty (reps : Nat) (h : 0 < reps) (bench : Nat → Nat → ℚ) (n : Nat) :
    ∃ l, measure reps bench n ([], []) = .ok l ∧ l.1.length = n ∧ l.2.length = n ∧
      ∀ i < n, (∃ m, l.1[i]? = some m ∧ Best reps bench i m) ∧ l.2[i]? = some ((List.range reps).map (bench i)) := by
  unfold measure
  induction n with
  | zero => exact ⟨_, rfl, rfl, rfl, by simp⟩
  | succ n ih =>
    obtain ⟨l, h1, h2, h3, h4⟩ := ih
    obtain ⟨m, hm, hb⟩ := maximum_best reps h bench n
    refine ⟨(l.1 ++ [m], l.2 ++ [(List.range reps).map (bench n)]), ?_, by simp [h2], by simp [h3], fun i hi => ?_⟩
    · rw [List.range_succ, List.foldlM_append, h1]
      simp [measureOne, h2, hm, bind, Except.bind, pure, Except.pure]
    · rcases Nat.lt_succ_iff_lt_or_eq.1 hi with hi | rfl
      · obtain ⟨⟨m', e, hb'⟩, e'⟩ := h4 i hi
        refine ⟨⟨m', ?_, hb'⟩, ?_⟩
        · simp only; rw [List.getElem?_append_left (by omega)]; exact e
        · simp only; rw [List.getElem?_append_left (by omega)]; exact e'
      · refine ⟨⟨m, ?_, hb⟩, ?_⟩
        · simp only; rw [← h2, List.getElem?_concat_length]
        · simp only; rw [List.getElem?_append_right (by omega), h3]; simp

/-- Nothing is measured if all results exist. -/
theorem measure_full (reps : Nat) (bench : Nat → Nat → ℚ) (n : Nat) (l : Lists) (h : n ≤ l.1.length) :
    measure reps bench n l = .ok l := by
  unfold measure
  induction n with
  | zero => rfl
  | succ n ih =>
    rw [List.range_succ, List.foldlM_append, ih (by omega)]
    simp [measureOne, show l.1.length > n by omega, bind, Except.bind, pure, Except.pure]

/-- C90: afterwards there is one result per working set. Either all were stored before and are unchanged, or all are the best
of the repetitions of this run. -/
theorem C90_results (reps : Nat) (h : 0 < reps) (bench : Nat → Nat → ℚ) (n : Nat) (r : Option (List ℚ))
    (s : Option (List (List ℚ))) :
    ∃ l, measure reps bench n (prepare false n r s) = .ok l ∧ l.1.length = n ∧ l.2.length = n ∧
      ((r = some l.1 ∧ s = some l.2) ∨ ∀ i < n, ∃ m, l.1[i]? = some m ∧ Best reps bench i m) := by
  have hempty : prepare false n r s = ([], []) → ∃ l, measure reps bench n (prepare false n r s) = .ok l ∧
      l.1.length = n ∧ l.2.length = n ∧
      ((r = some l.1 ∧ s = some l.2) ∨ ∀ i < n, ∃ m, l.1[i]? = some m ∧ Best reps bench i m) := by
    intro e
    rw [e]
    obtain ⟨l, h1, h2, h3, h4⟩ := measure_empty reps h bench n
    exact ⟨l, h1, h2, h3, Or.inr fun i hi => (h4 i hi).1⟩
  match r, s with
  | none, _ => exact hempty rfl
  | some _, none => exact hempty rfl
  | some r, some s =>
    by_cases hl : r.length = s.length ∧ s.length = n
    · have e : prepare false n (some r) (some s) = (r, s) := by simp [prepare, hl.1, hl.2]
      rw [e, measure_full _ _ _ _ (by simp only; omega)]
      exact ⟨_, rfl, by simp only; omega, hl.2, Or.inl ⟨rfl, rfl⟩⟩
    · apply hempty
      simp only [prepare, Bool.false_or]
      rw [if_pos]
      have := not_and_or.1 hl
      simpa using this

/-- C90: complete lists are not measured again. -/
theorem C90_kept_partial (reps : Nat) (bench : Nat → Nat → ℚ) (r : List ℚ) (s : List (List ℚ)) (n : Nat)
    (h1 : r.length = n) (h2 : s.length = n) : measure reps bench n (prepare false n (some r) (some s)) = .ok (r, s) := by
  have e : prepare false n (some r) (some s) = (r, s) := by simp [prepare, h1, h2]
  rw [e, measure_full _ _ _ _ (by simp only; omega)]

/-- C90, negation: an update that was interrupted after `k` of `n` working sets starts again from the beginning, whatever was
stored. -/
theorem C90_negation_interrupted (reps : Nat) (h : 0 < reps) (bench bench' : Nat → Nat → ℚ) (k n : Nat) (hk : k < n) :
    ∃ l, measure reps bench k ([], []) = .ok l ∧ l.1.length = k ∧
      measure reps bench' n (prepare false n (some l.1) (some l.2)) = measure reps bench' n ([], []) := by
  obtain ⟨l, h1, h2, h3, _⟩ := measure_empty reps h bench k
  refine ⟨l, h1, h2, ?_⟩
  have : prepare false n (some l.1) (some l.2) = ([], []) := by simp [prepare, h2, h3, hk.ne]
  rw [this]

/-- C90: what is stored afterwards does not depend on a new measurement exactly if both lists were complete before. -/
theorem C90_kept_iff (reps : Nat) (h : 0 < reps) (n : Nat) (hn : 0 < n) (r : Option (List ℚ)) (s : Option (List (List ℚ))) :
    (∃ l, ∀ bench, measure reps bench n (prepare false n r s) = .ok l) ↔
      ∃ l : Lists, r = some l.1 ∧ s = some l.2 ∧ l.1.length = n ∧ l.2.length = n := by
  constructor
  · rintro ⟨l, hl⟩
    by_contra hc
    have key : ∀ x : ℚ, l.1[0]? = some x := by
      intro x
      obtain ⟨l', h1, h2, h3, h4⟩ := C90_results reps h (fun _ _ => x) n r s
      rw [hl, Except.ok.injEq] at h1
      subst h1
      rcases h4 with h4 | h4
      · exact absurd ⟨l, h4.1, h4.2, h2, h3⟩ hc
      · obtain ⟨m, h5, ⟨_, _, h6⟩, _⟩ := h4 0 hn
        rw [h5, h6]
    have := (key 0).symm.trans (key 1)
    simp at this
  · rintro ⟨l, rfl, rfl, h1, h2⟩
    exact ⟨l, fun bench => C90_kept_partial reps bench l.1 l.2 n h1 h2⟩

/-- Two repetitions and two working sets; the run is interrupted after the first, the next one has other values. -/
example : measure 2 (fun i r => i + r) 2 ([], []) = .ok ([1, 2], [[0, 1], [1, 2]]) ∧
    measure 2 (fun i r => i + r) 1 ([], []) = .ok ([1], [[0, 1]]) ∧
    measure 2 (fun i r => 10 * i + r + 5) 2 (prepare false 2 (some [1]) (some [[0, 1]])) =
      .ok ([6, 16], [[5, 6], [15, 16]]) := by decide +kernel

end Verif.BenchUpdate
