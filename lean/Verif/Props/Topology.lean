import Verif.Lemmas.Topology

/-!
C96 and C97: the machine as `likwid-topology` describes it.
-/

namespace Verif.Topology

open Verif.Text Verif.Clean Verif.Likwid

/-! ### C97 -/

/-- The four numbers in the output. -/
structure Numbers (s : List Char) (t k c d : Nat) : Prop where
  threads : HasField "Threads per core:".toList t s
  sockets : HasField "Sockets:".toList k s
  cores : HasField "Cores per socket:".toList c s
  numa : HasField "NUMA domains:".toList d s

/-- C97: numbers are those of the output; with domains that are spread evenly over sockets, and cores over domains, the
cores of all domains are the cores of all sockets. Missing: domains of more than one socket (`C97_negation_numa`). -/
theorem C97_readouts_partial (s : List Char) (t k c d : Nat) (h : Numbers s t k c d) (hk : 0 < k) :
    ∃ r, readouts s = .ok r ∧ r.threadsPerCore = t ∧ r.sockets = k ∧ r.coresPerSocket = c ∧ 0 < r.numaPerSocket ∧
      ((∃ m, 0 < m ∧ d = m * k ∧ m ∣ c) → r.numaPerSocket * r.sockets = d ∧ r.coresPerNuma * d = c * k) := by
  obtain ⟨h1, h2, h3, h4⟩ := h
  have hr : readouts s = .ok ⟨t, k, c, if d / k = 0 then 1 else d / k, c / (if d / k = 0 then 1 else d / k)⟩ := by
    rw [readouts, field_of _ t s (by decide) h1, field_of _ k s (by decide) h2,
      field_of _ c s (by decide) h3, field_of _ d s (by decide) h4]
    simp only [bind, Except.bind]
    rw [if_neg (by omega)]
  refine ⟨_, hr, rfl, rfl, rfl, ?_, ?_⟩
  · show 0 < if d / k = 0 then 1 else d / k
    split
    · omega
    · exact Nat.pos_of_ne_zero ‹_›
  · rintro ⟨m, hm, rfl, q, rfl⟩
    have e : m * k / k = m := Nat.mul_div_cancel _ hk
    simp only [e, if_neg (show ¬ m = 0 by omega), true_and]
    rw [Nat.mul_div_cancel_left _ hm]
    ring

/-- C97: the exact condition. The domains are divided among the sockets, and the cores among the domains, if and only if the numbers
divide. -/
theorem C97_readouts_iff (s : List Char) (t k c d : Nat) (h : Numbers s t k c d) (hk : 0 < k) :
    ∃ r, readouts s = .ok r ∧ (r.numaPerSocket * r.sockets = d ∧ r.coresPerNuma * d = c * k ↔ ∃ m, 0 < m ∧ d = m * k ∧ m ∣ c) := by
  obtain ⟨r, hr, h1, h2, h3, h4, h5⟩ := C97_readouts_partial s t k c d h hk
  refine ⟨r, hr, ?_, h5⟩
  rintro ⟨ha, hb⟩
  refine ⟨r.numaPerSocket, h4, by rw [← ha, h2], r.coresPerNuma, ?_⟩
  rw [← ha, h2, ← mul_assoc] at hb
  rw [mul_comm, Nat.eq_of_mul_eq_mul_right hk hb]

/-- A section on two caches. -/
def sampleCaches : String :=
  "Cache Topology\nLevel:\t1\nSize:\t32 kB\nCache groups:\t( 0 8 ) ( 1 9 ) ( 2 10 ) ( 3 11 ) ( 4 12 ) ( 5 13 ) ( 6 14 ) ( 7 15 ) \n-----\nLevel:\t2\nSize:\t8 MB\nCache groups:\t( 0 8 1 9 2 10 3 11 ) ( 4 12 5 13 6 14 7 15 ) \n-----\n"

/-- An output with two sockets, four cores each, and four domains. -/
def sampleText : List Char :=
  ("Sockets:\t2\nCores per socket:\t4\nThreads per core:\t2\n" ++ sampleCaches ++ "NUMA Topology\nNUMA domains:\t4\n").toList

/-- A field after other lines. -/
theorem hasField (key pre post : String) (n : Nat) (h1 : post.toList = [] ∨ post.toList.head? = some '\n')
    (h2 : pre.toList = [] ∨ pre.toList.getLast? = some '\n') (h3 : (splitNl pre.toList).all (fun l => !key.toList.isPrefixOf l) = true) (s : List Char)
    (hs : s = pre.toList ++ key.toList ++ ['\t'] ++ showNat n ++ [] ++ post.toList) : HasField key.toList n s :=
  ⟨pre.toList, ['\t'], [], post.toList, by simp [Blanks], by simp, by simp [Blanks], hs, h1, h2,
    fun l hl hk => by simpa [List.isPrefixOf_iff_prefix.2 hk] using List.all_eq_true.1 h3 l hl⟩

theorem sample_threads : HasField "Threads per core:".toList 2 sampleText :=
  hasField _ "Sockets:\t2\nCores per socket:\t4\n" ("\n" ++ sampleCaches ++ "NUMA Topology\nNUMA domains:\t4\n") 2 (by decide +kernel)
    (by decide +kernel) (by decide +kernel) _ (by decide +kernel)

theorem sample_sockets : HasField "Sockets:".toList 2 sampleText :=
  hasField _ "" ("\nCores per socket:\t4\nThreads per core:\t2\n" ++ sampleCaches ++ "NUMA Topology\nNUMA domains:\t4\n") 2
    (by decide +kernel) (by decide +kernel) (by decide +kernel) _ (by decide +kernel)

theorem sample_cores : HasField "Cores per socket:".toList 4 sampleText :=
  hasField _ "Sockets:\t2\n" ("\nThreads per core:\t2\n" ++ sampleCaches ++ "NUMA Topology\nNUMA domains:\t4\n") 4 (by decide +kernel)
    (by decide +kernel) (by decide +kernel) _ (by decide +kernel)

theorem sample_numa : HasField "NUMA domains:".toList 4 sampleText :=
  hasField _ ("Sockets:\t2\nCores per socket:\t4\nThreads per core:\t2\n" ++ sampleCaches ++ "NUMA Topology\n") "\n" 4 (by decide)
    (by decide +kernel) (by decide +kernel) _ (by decide +kernel)

example : Numbers sampleText 2 2 4 4 := ⟨sample_threads, sample_sockets, sample_cores, sample_numa⟩

example : readouts sampleText = .ok ⟨2, 2, 4, 2, 2⟩ := by decide +kernel

/-- C97 is false for a domain of two sockets: it counts once per socket. -/
theorem C97_negation_numa : ∃ s, Numbers s 1 2 4 1 ∧ ∃ r, readouts s = .ok r ∧ r.numaPerSocket * r.sockets ≠ 1 ∧
    r.coresPerNuma * 1 ≠ 4 * 2 := by
  refine ⟨"Sockets:\t2\nCores per socket:\t4\nThreads per core:\t1\nNUMA domains:\t1\n".toList, ⟨?_, ?_, ?_, ?_⟩, ⟨1, 2, 4, 1, 4⟩, ?_⟩
  · exact hasField _ "Sockets:\t2\nCores per socket:\t4\n" "\nNUMA domains:\t1\n" 1 (by decide +kernel) (by decide +kernel)
      (by decide +kernel) _ (by decide +kernel)
  · exact hasField _ "" "\nCores per socket:\t4\nThreads per core:\t1\nNUMA domains:\t1\n" 2 (by decide +kernel) (by decide +kernel)
      (by decide +kernel) _ (by decide +kernel)
  · exact hasField _ "Sockets:\t2\n" "\nThreads per core:\t1\nNUMA domains:\t1\n" 4 (by decide +kernel) (by decide +kernel)
      (by decide +kernel) _ (by decide +kernel)
  · exact hasField _ "Sockets:\t2\nCores per socket:\t4\nThreads per core:\t1\n" "\n" 1 (by decide +kernel) (by decide +kernel)
      (by decide +kernel) _ (by decide +kernel)
  · exact ⟨by decide +kernel, by decide, by decide⟩

/-! ### C96 -/

/-- What an entry says about a cache. -/
structure Matches (r : Readouts) (c : Cache) (l : Level) : Prop where
  name : l.name = 'L' :: showNat c.level
  size : ∃ q, Units.read c.size = .ok q ∧ l.size = some q
  groups : l.groups = some c.groups.length
  cores : l.coresPerGroup = some (r.coresPerSocket * r.sockets / c.groups.length)
  threads : l.threadsPerGroup = some (r.coresPerSocket * r.sockets / c.groups.length * r.threadsPerCore)

/-- Before the end, each cache is followed by the next level. -/
structure MatchesNext (r : Readouts) (c : Cache) (l : Level) : Prop extends Matches r c l where
  load : l.loadFrom = some ('L' :: showNat (c.level + 1))
  store : l.storeTo = some ('L' :: showNat (c.level + 1))

theorem forall₂_concat {α β : Type} {R : α → β → Prop} (as : List α) (bs : List β) (a : α) (b : β)
    (h : List.Forall₂ R (as ++ [a]) (bs ++ [b])) : List.Forall₂ R as bs ∧ R a b := by
  have := List.rel_reverse h
  simp only [List.reverse_append, List.reverse_cons, List.reverse_nil, List.nil_append, List.cons_append] at this
  cases this with
  | cons h1 h2 => exact ⟨by simpa using List.rel_reverse h2, h1⟩

theorem fold_describes (r : Readouts) (lines : List (List Char)) (cs : List Cache) (h : Describes lines cs)
    (hg : ∀ c ∈ cs, c.groups ≠ [] ∧ ∃ q, Units.read c.size = .ok q) (acc : List Level) :
    ∃ ls, lines.foldlM (step true r) acc = .ok (acc ++ ls) ∧ List.Forall₂ (MatchesNext r) cs ls := by
  induction h generalizing acc with
  | nil => exact ⟨[], by simp [pure, Except.pure], .nil⟩
  | other l ls cs ho h ih =>
    obtain ⟨ls', h1, h2⟩ := ih hg acc
    exact ⟨ls', by simp only [List.foldlM_cons, step_other true r acc l ho]; exact h1, h2⟩
  | cache c l1 o1 l2 o2 l3 ls cs h1 g1 h2 g2 h3 h ih =>
    obtain ⟨hne, q, hq⟩ := hg c (by simp)
    obtain ⟨ls', k1, k2⟩ := ih (fun x hx => hg x (by simp [hx])) (acc ++ [{
      name := 'L' :: showNat c.level, loadFrom := some ('L' :: showNat (c.level + 1)), storeTo := some ('L' :: showNat (c.level + 1)),
      size := some q, groups := some c.groups.length, coresPerGroup := some (r.coresPerSocket * r.sockets / c.groups.length),
      threadsPerGroup := some (r.coresPerSocket * r.sockets / c.groups.length * r.threadsPerCore) }])
    refine ⟨{
      name := 'L' :: showNat c.level, loadFrom := some ('L' :: showNat (c.level + 1)), storeTo := some ('L' :: showNat (c.level + 1)),
      size := some q, groups := some c.groups.length, coresPerGroup := some (r.coresPerSocket * r.sockets / c.groups.length),
      threadsPerGroup := some (r.coresPerSocket * r.sockets / c.groups.length * r.threadsPerCore) } :: ls', ?_,
      .cons ⟨⟨rfl, ⟨q, hq, rfl⟩, rfl, rfl, rfl⟩, rfl, rfl⟩ k2⟩
    rw [List.append_assoc, List.cons_append, List.foldlM_cons, step_level true r acc c.level l1 h1]
    change (o1 ++ (l2 :: o2 ++ l3 :: ls)).foldlM (step true r) _ = _
    rw [fold_others true r _ o1 _ g1, List.cons_append, List.foldlM_cons, step_size r acc c.level c.size l2 q hq h2]
    change (o2 ++ l3 :: ls).foldlM (step true r) _ = _
    rw [fold_others true r _ o2 _ g2, List.foldlM_cons, step_groups true r acc _ c.groups l3 h3 hne]
    change ls.foldlM (step true r) _ = _
    rw [k1]
    simp

/-- The entry of the main memory. -/
def IsMemory (r : Readouts) (l : Level) : Prop :=
  l.name = "MEM".toList ∧ l.loadFrom = none ∧ l.size = none ∧ l.coresPerGroup = some r.coresPerSocket ∧
    l.threadsPerGroup = some (r.threadsPerCore * r.coresPerSocket)

theorem describes_lines {lines : List (List Char)} {cs : List Cache} (h : Describes lines cs) : ∀ l ∈ lines, '\n' ∉ l := by
  have hlev : ∀ n l, LevelLine n l → '\n' ∉ l := by
    rintro n l ⟨a, b, ha, hb, rfl⟩ hc
    simp only [List.mem_append] at hc
    rcases hc with ((hc | hc) | hc) | hc
    · revert hc; decide
    · exact blanks_nl ha hc
    · exact showNat_no n '\n' (by decide) hc
    · exact blanks_nl hb hc
  have hsiz : ∀ t l, SizeLine t l → '\n' ∉ l := by
    rintro t l ⟨a, b, ha, hb, -, -, -, -, ht, rfl⟩ hc
    simp only [List.mem_append] at hc
    rcases hc with ((hc | hc) | hc) | hc
    · revert hc; decide
    · exact blanks_nl ha hc
    · exact ht hc
    · exact blanks_nl hb hc
  have hgrp : ∀ gs l, GroupsLine gs l → '\n' ∉ l := by
    rintro gs l ⟨a, ha, hg, rfl⟩ hc
    simp only [List.mem_append, List.mem_flatMap, List.mem_cons, List.not_mem_nil, or_false] at hc
    rcases hc with (hc | hc) | ⟨g, hgm, (hc | hc) | hc⟩
    · revert hc; decide
    · exact blanks_nl ha hc
    · revert hc; decide
    · exact (hg g hgm).2 hc
    · revert hc; decide
  induction h with
  | nil => simp
  | other l ls cs ho h ih =>
    intro x hx
    rcases List.mem_cons.1 hx with rfl | hx
    · exact ho.1
    · exact ih x hx
  | cache c l1 o1 l2 o2 l3 ls cs h1 g1 h2 g2 h3 h ih =>
    intro x hx
    simp only [List.mem_append, List.mem_cons] at hx
    rcases hx with ((rfl | hx) | (rfl | hx)) | (rfl | hx)
    · exact hlev _ _ h1
    · exact (g1 x hx).1
    · exact hsiz _ _ h2
    · exact (g2 x hx).1
    · exact hgrp _ _ h3
    · exact ih x hx

theorem first_le {p s : List Char} {i : Nat} (hp : p ≠ []) (h : First p s i) : i ≤ s.length := by
  by_contra hc
  have : s.drop i = [] := List.drop_eq_nil_of_le (by omega)
  rw [First, this] at h
  exact hp (by simpa using h.1)

theorem slice_caches {s : List Char} {lines : List (List Char)} (h : Caches s lines) :
    slice s (find "Cache Topology".toList s) (find "NUMA Topology".toList s) = joinNl lines ∧ lines ≠ [] := by
  obtain ⟨i, j, h1, h2, h3, h4⟩ := h
  refine ⟨?_, h4⟩
  have b1 := first_le (by decide) h1
  have b2 := first_le (by decide) h2
  rw [find_first _ s i (by decide) h1, find_first _ s j (by decide) h2, ← h3, slice, bound, bound,
    if_neg (by omega), if_neg (by omega)]
  simp only [Int.toNat_natCast, Nat.min_eq_left b1, Nat.min_eq_left b2]

/-- C96: the memory hierarchy has one entry per cache that the output describes, in this order, and one for the main memory;
every cache loads from and stores to the level with the next number, except for the last one. Missing: a call without placeholders (`C96_negation_placeholders`). -/
theorem C96_hierarchy_partial (s : List Char) (r : Readouts) (hr : readouts s = .ok r) (lines : List (List Char)) (hs : Caches s lines)
    (cs : List Cache) (hd : Describes lines cs) (hne : cs ≠ [])
    (hg : ∀ c ∈ cs, c.groups ≠ [] ∧ ∃ q, Units.read c.size = .ok q) :
    ∃ ls m, hierarchy true s = .ok (ls ++ [m]) ∧ List.Forall₂ (Matches r) cs ls ∧ IsMemory r m ∧
      (∀ (i : Nat) (c : Cache) (l : Level), i + 1 < cs.length → cs[i]? = some c → ls[i]? = some l →
        l.loadFrom = some ('L' :: showNat (c.level + 1)) ∧ l.storeTo = some ('L' :: showNat (c.level + 1))) ∧
      ∀ l, ls.getLast? = some l → l.loadFrom = none ∧ l.storeTo = none := by
  obtain ⟨e1, hl⟩ := slice_caches hs
  obtain ⟨ls, h1, h2⟩ := fold_describes r lines cs hd hg []
  rw [List.nil_append] at h1
  have hlen := h2.length_eq
  rcases List.eq_nil_or_concat ls with rfl | ⟨ini, last, rfl⟩
  · simp at hlen; exact absurd (List.length_eq_zero_iff.1 (by simpa using hlen)) hne
  rcases List.eq_nil_or_concat cs with rfl | ⟨cini, clast, rfl⟩
  · exact absurd rfl hne
  simp only [List.concat_eq_append] at *
  have hlen' : cini.length = ini.length := by simpa using hlen
  have h2a : List.Forall₂ (MatchesNext r) cini ini ∧ MatchesNext r clast last :=
    forall₂_concat _ _ _ _ h2
  refine ⟨ini ++ [{ last with loadFrom := none, storeTo := none }],
    { name := "MEM".toList, coresPerGroup := some r.coresPerSocket, threadsPerGroup := some (r.threadsPerCore * r.coresPerSocket) },
    ?_, ?_, ⟨rfl, rfl, rfl, rfl, rfl⟩, ?_, ?_⟩
  · rw [hierarchy, hr]
    simp only [bind, Except.bind, e1, splitNl_joinNl lines hl (describes_lines hd), h1]
    rw [finish, List.getLast?_concat]
    simp only
    rw [if_neg (by rw [h2a.2.load]; simp), onLast_concat]
  · refine List.rel_append (h2a.1.imp fun _ _ h => h.toMatches) (.cons ?_ .nil)
    obtain ⟨⟨g1, g2, g3, g4, g5⟩, -, -⟩ := h2a.2
    exact ⟨g1, g2, g3, g4, g5⟩
  · intro i c l hi hc hl'
    have hi' : i < cini.length := by simp at hi; omega
    rw [List.getElem?_append_left hi'] at hc
    rw [List.getElem?_append_left (by omega)] at hl'
    obtain ⟨hi1, rfl⟩ := List.getElem?_eq_some_iff.1 hc
    obtain ⟨hi2, rfl⟩ := List.getElem?_eq_some_iff.1 hl'
    have := h2a.1.get hi1 hi2
    exact ⟨this.load, this.store⟩
  · intro l hl'
    rw [List.getLast?_concat] at hl'
    cases hl'
    exact ⟨rfl, rfl⟩

/-- C96, second part: with levels that are numbered in a row, every cache loads from and stores to the entry after it.
Missing: as before. -/
theorem C96_chain_partial (s : List Char) (r : Readouts) (hr : readouts s = .ok r) (lines : List (List Char)) (hs : Caches s lines)
    (cs : List Cache) (hd : Describes lines cs) (hne : cs ≠ [])
    (hg : ∀ c ∈ cs, c.groups ≠ [] ∧ ∃ q, Units.read c.size = .ok q)
    (hrow : ∀ (i : Nat) (c d : Cache), cs[i]? = some c → cs[i + 1]? = some d → d.level = c.level + 1) :
    ∃ ls m, hierarchy true s = .ok (ls ++ [m]) ∧
      ∀ (i : Nat) (l n : Level), ls[i]? = some l → ls[i + 1]? = some n → l.loadFrom = some n.name ∧ l.storeTo = some n.name := by
  obtain ⟨ls, m, h1, h2, -, h3, -⟩ := C96_hierarchy_partial s r hr lines hs cs hd hne hg
  refine ⟨ls, m, h1, fun i l n hl hn => ?_⟩
  have hlen := h2.length_eq
  obtain ⟨hi1, rfl⟩ := List.getElem?_eq_some_iff.1 hl
  obtain ⟨hi2, rfl⟩ := List.getElem?_eq_some_iff.1 hn
  have hm := h2.get (i := i + 1) (by omega) hi2
  have hc := hrow i _ _ (List.getElem?_eq_getElem (by omega)) (List.getElem?_eq_getElem (by omega))
  have := h3 i _ _ (by omega) (List.getElem?_eq_getElem (by omega)) hl
  rw [← hc] at this
  have hname := hm.name
  simp only [List.get_eq_getElem] at hname
  rw [hname]
  exact this

/-- C96, third part: groups that have the same number of cores have all cores together. Missing: groups of
different sizes (`C96_negation_groups`). -/
theorem C96_cores_partial (r : Readouts) (c : Cache) (l : Level) (h : Matches r c l) (hd : c.groups.length ∣ r.coresPerSocket * r.sockets) :
    ∃ g k t, l.groups = some g ∧ l.coresPerGroup = some k ∧ l.threadsPerGroup = some t ∧ g * k = r.coresPerSocket * r.sockets ∧
      g * t = r.coresPerSocket * r.sockets * r.threadsPerCore := by
  refine ⟨_, _, _, h.groups, h.cores, h.threads, Nat.mul_div_cancel' hd, ?_⟩
  rw [← Nat.mul_assoc, Nat.mul_div_cancel' hd]

/-- The caches of the sample. -/
def sampleCacheList : List Cache :=
  [⟨1, "32 kB".toList, [" 0 8 ", " 1 9 ", " 2 10 ", " 3 11 ", " 4 12 ", " 5 13 ", " 6 14 ", " 7 15 "].map (·.toList)⟩,
   ⟨2, "8 MB".toList, [" 0 8 1 9 2 10 3 11 ", " 4 12 5 13 6 14 7 15 "].map (·.toList)⟩]

example : Describes (splitNl sampleCaches.toList) sampleCacheList := by
  have e : splitNl sampleCaches.toList = "Cache Topology".toList :: ("Level:\t1".toList :: [] ++ "Size:\t32 kB".toList :: [] ++
      "Cache groups:\t( 0 8 ) ( 1 9 ) ( 2 10 ) ( 3 11 ) ( 4 12 ) ( 5 13 ) ( 6 14 ) ( 7 15 ) ".toList :: "-----".toList ::
      ("Level:\t2".toList :: [] ++ "Size:\t8 MB".toList :: [] ++
      "Cache groups:\t( 0 8 1 9 2 10 3 11 ) ( 4 12 5 13 6 14 7 15 ) ".toList :: "-----".toList :: [[]])) := by decide +kernel
  rw [e]
  have b : Blanks ['\t'] := by simp [Blanks]
  have b0 : Blanks [] := by simp [Blanks]
  refine .other _ _ _ (by unfold Other; decide) (.cache _ _ [] _ [] _ _ _ ⟨['\t'], [], b, b0, by decide +kernel⟩ (by simp)
    ⟨['\t'], [], b, b0, by decide, by decide, by decide, by decide, by decide, by decide +kernel⟩ (by simp)
    ⟨['\t'], b, by decide +kernel, by decide +kernel⟩
    (.other _ _ _ (by unfold Other; decide) (.cache _ _ [] _ [] _ _ _ ⟨['\t'], [], b, b0, by decide +kernel⟩ (by simp)
    ⟨['\t'], [], b, b0, by decide, by decide, by decide, by decide, by decide, by decide +kernel⟩ (by simp)
    ⟨['\t'], b, by decide +kernel, by decide +kernel⟩
    (.other _ _ _ (by unfold Other; decide) (.other _ _ _ (by unfold Other; decide) .nil)))))

theorem sample_first (p : List Char) (i : Nat) (h : (List.range i).all (fun j => !p.isPrefixOf (sampleText.drop j)) = true)
    (hi : p.isPrefixOf (sampleText.drop i) = true) : First p sampleText i :=
  ⟨List.isPrefixOf_iff_prefix.1 hi, fun j hj hp => by
    have := List.all_eq_true.1 h j (List.mem_range.2 hj)
    simp [List.isPrefixOf_iff_prefix.2 hp] at this⟩

theorem sample_start : First "Cache Topology".toList sampleText 51 := sample_first _ _ (by decide +kernel) (by decide +kernel)

theorem sample_end : First "NUMA Topology".toList sampleText 265 := sample_first _ _ (by decide +kernel) (by decide +kernel)

example : Caches sampleText (splitNl sampleCaches.toList) :=
  ⟨51, 265, sample_start, sample_end, by rw [joinNl_splitNl]; decide +kernel, splitNl_ne_nil _⟩

example : (∀ c ∈ sampleCacheList, c.groups ≠ [] ∧ ∃ q, Units.read c.size = .ok q) := by
  intro c hc
  simp only [sampleCacheList, List.mem_cons, List.not_mem_nil, or_false] at hc
  rcases hc with rfl | rfl
  · exact ⟨by decide, _, rfl⟩
  · exact ⟨by decide, _, rfl⟩

/-- Without placeholders, there is no entry that could be set: sizes of caches cannot be read. -/
theorem C96_negation_placeholders (s : List Char) (r : Readouts) (hr : readouts s = .ok r) (lines : List (List Char)) (hs : Caches s lines)
    (cs : List Cache) (hd : Describes lines cs) (hne : cs ≠ [])
    (hg : ∀ c ∈ cs, c.groups ≠ [] ∧ ∃ q, Units.read c.size = .ok q) : hierarchy false s = .error "KeyError" := by
  obtain ⟨e1, hl⟩ := slice_caches hs
  have key : lines.foldlM (step false r) [] = .error "KeyError" := by
    clear e1 hl hs
    generalize ([] : List Level) = acc
    induction hd generalizing acc with
    | nil => exact absurd rfl hne
    | other l ls cs ho h ih =>
      simp only [List.foldlM_cons, step_other false r acc l ho]
      exact ih hne hg acc
    | cache c l1 o1 l2 o2 l3 ls cs h1 g1 h2 g2 h3 h ih =>
      obtain ⟨-, q, hq⟩ := hg c (by simp)
      rw [List.append_assoc, List.cons_append, List.foldlM_cons, step_level false r acc c.level l1 h1]
      change (o1 ++ (l2 :: o2 ++ l3 :: ls)).foldlM (step false r) _ = _
      rw [fold_others false r _ o1 _ g1, List.cons_append, List.foldlM_cons]
      have : step false r (acc ++ [{ name := 'L' :: showNat c.level }]) l2 = .error "KeyError" := by
        have hv := value_size c.size l2 h2
        obtain ⟨a, b, ha, hb, -, -, -, -, -, rfl⟩ := h2
        have h0 : ¬ startsWith "Level:".toList ("Size:".toList ++ a ++ c.size ++ b) = true := by simp [startsWith]
        have hs : startsWith "Size:".toList ("Size:".toList ++ a ++ c.size ++ b) = true := by
          rw [startsWith_iff]; simp only [List.append_assoc]; exact List.prefix_append _ _
        rw [step, if_neg h0, if_pos hs, hv]
        simp [hq]
      rw [this]
      rfl
  rw [hierarchy, hr]
  simp only [bind, Except.bind, e1, splitNl_joinNl lines hl (describes_lines hd), key]

/-- C96 is false for groups of different sizes: three groups of four cores. -/
theorem C96_negation_groups : ∃ (r : Readouts) (c : Cache) (l : Level), step true r [⟨['L', '2'], some ['L', '3'], some ['L', '3'], none, none, none, none⟩]
      "Cache groups:\t( 0 1 ) ( 2 ) ( 3 ) ".toList = .ok [l] ∧
    GroupsLine c.groups "Cache groups:\t( 0 1 ) ( 2 ) ( 3 ) ".toList ∧ r.coresPerSocket * r.sockets = 4 ∧ l.groups = some 3 ∧
    l.coresPerGroup = some 1 :=
  ⟨⟨1, 1, 4, 1, 4⟩, ⟨2, [], [" 0 1 ", " 2 ", " 3 "].map (·.toList)⟩, ⟨['L', '2'], some ['L', '3'], some ['L', '3'], none, some 3, some 1, some 1⟩,
    by decide +kernel, ⟨['\t'], by simp [Blanks], by decide +kernel, by decide +kernel⟩, rfl, rfl, rfl⟩

end Verif.Topology
