import Verif.Lemmas.LayerCond

/-!
Lemmas for caches with lines of several elements (C20).
-/

namespace Verif.LayerCond
open Verif.Layout Verif.Spec

variable {K : Type} [LinearOrder K]

/-- Lines of the elements from `x` to `y`. -/
theorem div_mem_Icc (L x y z : Int) (hL : 0 < L) (h1 : x ≤ z) (h2 : z ≤ y) : z / L ∈ Finset.Icc (x / L) (y / L) :=
  Finset.mem_Icc.2 ⟨Int.ediv_le_ediv hL h1, Int.ediv_le_ediv hL h2⟩

/-- Number of lines of a union of intervals. The last position within its line is kept for the induction. -/
theorem card_lines_touched (len L : Nat) (hlen : 0 < len) (hL : 0 < L) (c a : Int) (l : List Int)
    (h : (a :: l).Pairwise (fun a b => b ≤ a)) :
    (L : Int) * (((touched len (a :: l)).image fun x => (c + x) / (L : Int)).card : Int) + (c + a + len - 1) % L ≤
      (len + 2 * (L - 1)) + ((gaps (a :: l)).map (fun d => min d ((len : Int) + 2 * (L - 1)))).sum := by
  have hL' : (0 : Int) < L := by exact_mod_cast hL
  have mod := fun z : Int => Int.emod_add_mul_ediv z L
  have lo := fun z : Int => Int.emod_nonneg z (ne_of_gt hL')
  have hi := fun z : Int => Int.emod_lt_of_pos z hL'
  -- one interval alone
  have single : ∀ a : Int, (L : Int) * ((Finset.Icc ((c + a) / (L : Int)) ((c + a + len - 1) / (L : Int))).card : Int) + (c + a + len - 1) % L ≤
      len + 2 * (L - 1) := by
    intro a
    rw [Int.card_Icc]
    have hle : (c + a) / (L : Int) ≤ (c + a + len - 1) / (L : Int) := Int.ediv_le_ediv hL' (by omega)
    rw [Int.toNat_of_nonneg (by omega)]
    have m1 := mod (c + a)
    have m2 := mod (c + a + len - 1)
    have h1 := hi (c + a)
    have e : (L : Int) * ((c + a + len - 1) / (L : Int) + 1 - (c + a) / (L : Int)) =
        L * ((c + a + len - 1) / (L : Int)) + L - L * ((c + a) / (L : Int)) := by ring
    omega
  induction l generalizing a with
  | nil =>
    have hsub : ((touched len [a]).image fun x => (c + x) / (L : Int)) ⊆ Finset.Icc ((c + a) / (L : Int)) ((c + a + len - 1) / (L : Int)) := by
      intro z hz
      obtain ⟨x, hx, rfl⟩ := Finset.mem_image.1 hz
      obtain ⟨o, ho, h1, h2⟩ := (mem_touched _ _ _).1 hx
      rw [List.mem_singleton] at ho
      subst ho
      exact div_mem_Icc _ _ _ _ hL' (by omega) (by omega)
    have hc : (((touched len [a]).image fun x => (c + x) / (L : Int)).card : Int) ≤ _ := Int.ofNat_le.2 (Finset.card_le_card hsub)
    have := Int.mul_le_mul_of_nonneg_left hc hL'.le
    have := single a
    simp only [gaps, List.map_nil, List.sum_nil]
    omega
  | cons b l ih =>
    have hab : b ≤ a := (List.pairwise_cons.1 h).1 b (by simp)
    have ih' := ih b (List.pairwise_cons.1 h).2
    rw [gaps, List.map_cons, List.sum_cons]
    have hp : (touched len (a :: b :: l)) = Finset.Ico a (a + len) ∪ touched len (b :: l) := rfl
    generalize hT : ((touched len (b :: l)).image fun x => (c + x) / (L : Int)) = T at *
    have hbT : (c + b + len - 1) / (L : Int) ∈ T := by
      rw [← hT]
      refine Finset.mem_image.2 ⟨b + len - 1, (mem_touched _ _ _).2 ⟨b, by simp, by omega, by omega⟩, ?_⟩
      congr 1; ring
    -- as an interval of its own
    have own : (L : Int) * (((touched len (a :: b :: l)).image fun x => (c + x) / (L : Int)).card : Int) ≤
        L * T.card + ((len + 2 * (L - 1)) - (c + a + len - 1) % L) := by
      have hsub : ((touched len (a :: b :: l)).image fun x => (c + x) / (L : Int)) ⊆
          T ∪ Finset.Icc ((c + a) / (L : Int)) ((c + a + len - 1) / (L : Int)) := by
        intro z hz
        obtain ⟨x, hx, rfl⟩ := Finset.mem_image.1 hz
        rw [hp, Finset.mem_union, Finset.mem_Ico] at hx
        rw [Finset.mem_union]
        rcases hx with hx | hx
        · right
          exact div_mem_Icc _ _ _ _ hL' (by omega) (by omega)
        · left
          rw [← hT]
          exact Finset.mem_image_of_mem _ hx
      have hc : (((touched len (a :: b :: l)).image fun x => (c + x) / (L : Int)).card : Int) ≤ _ :=
        Int.ofNat_le.2 ((Finset.card_le_card hsub).trans (Finset.card_union_le _ _))
      have h1 := Int.mul_le_mul_of_nonneg_left hc hL'.le
      rw [Nat.cast_add, Int.mul_add] at h1
      have h2 := single a
      omega
    -- as a continuation of the interval before
    have cont : (L : Int) * (((touched len (a :: b :: l)).image fun x => (c + x) / (L : Int)).card : Int) ≤
        L * T.card + ((a - b) + (c + b + len - 1) % L - (c + a + len - 1) % L) := by
      have hsub : ((touched len (a :: b :: l)).image fun x => (c + x) / (L : Int)) ⊆
          T ∪ Finset.Ioc ((c + b + len - 1) / (L : Int)) ((c + a + len - 1) / (L : Int)) := by
        intro z hz
        obtain ⟨x, hx, rfl⟩ := Finset.mem_image.1 hz
        rw [hp, Finset.mem_union, Finset.mem_Ico] at hx
        rw [Finset.mem_union]
        rcases hx with hx | hx
        · by_cases hxb : x < b + len
          · left
            rw [← hT]
            exact Finset.mem_image_of_mem _ ((mem_touched _ _ _).2 ⟨b, by simp, by omega, hxb⟩)
          · have hd := Finset.mem_Icc.1 (div_mem_Icc L (c + b + len - 1) (c + a + len - 1) (c + x) hL' (by omega) (by omega))
            rcases eq_or_lt_of_le hd.1 with he | hlt
            · left
              rw [← he]
              exact hbT
            · right
              exact Finset.mem_Ioc.2 ⟨hlt, hd.2⟩
        · left
          rw [← hT]
          exact Finset.mem_image_of_mem _ hx
      have hc : (((touched len (a :: b :: l)).image fun x => (c + x) / (L : Int)).card : Int) ≤ _ :=
        Int.ofNat_le.2 ((Finset.card_le_card hsub).trans (Finset.card_union_le _ _))
      have h1 := Int.mul_le_mul_of_nonneg_left hc hL'.le
      have hle : (c + b + len - 1) / (L : Int) ≤ (c + a + len - 1) / (L : Int) := Int.ediv_le_ediv hL' (by omega)
      rw [Nat.cast_add, Int.mul_add, Int.card_Ioc, Int.toNat_of_nonneg (by omega)] at h1
      have m1 := mod (c + b + len - 1)
      have m2 := mod (c + a + len - 1)
      have e : (L : Int) * ((c + a + len - 1) / (L : Int) - (c + b + len - 1) / (L : Int)) =
          L * ((c + a + len - 1) / (L : Int)) - L * ((c + b + len - 1) / (L : Int)) := by ring
      omega
    have h1 := lo (c + b + len - 1)
    rcases min_cases (a - b) ((len : Int) + 2 * (L - 1)) with ⟨hm, -⟩ | ⟨hm, -⟩ <;> rw [hm] <;> omega

/-- Number of lines of the window of a sweep. -/
theorem card_lines_window (arrays : List (List Int)) (st : Nat → Int → Int) (len L : Nat) (hlen : 0 < len) (hL : 0 < L) (base : Nat → Int)
    (hne : ∀ offs ∈ arrays, offs ≠ [])
    (hdec : ∀ (k : Nat) (offs : List Int), arrays[k]? = some offs → (offs.map (st k)).Pairwise (fun a b => b ≤ a))
    (hst : ∀ (k : Nat) (offs : List Int), arrays[k]? = some offs →
      offs.Pairwise (fun a b => st k a - st k b ≤ a - b)) :
    (L : Int) * (((window arrays st len).image (lineOf base L)).card : Int) ≤
      ((len : Int) + 2 * (L - 1)) * arrays.length + ((arrays.flatMap gaps).map (fun d => min d ((len : Int) + 2 * (L - 1)))).sum := by
  have hL' : (0 : Int) < L := by exact_mod_cast hL
  have h1 : (L : Int) * (((window arrays st len).image (lineOf base L)).card : Int) ≤
      ∑ k ∈ Finset.range arrays.length,
        (((len : Int) + 2 * (L - 1)) + ((gaps (arrays.getD k [])).map (fun d => min d ((len : Int) + 2 * (L - 1)))).sum) := by
    unfold window
    rw [Finset.biUnion_image]
    refine le_trans (Int.mul_le_mul_of_nonneg_left (Int.ofNat_le.2 Finset.card_biUnion_le) hL'.le) ?_
    rw [Nat.cast_sum, Finset.mul_sum]
    apply Finset.sum_le_sum
    intro k hk
    have hlt : k < arrays.length := by simpa using hk
    have hget : arrays[k]? = some arrays[k] := List.getElem?_eq_getElem hlt
    have hgd : arrays.getD k [] = arrays[k] := by
      rw [List.getD_eq_getElem?_getD, hget]; rfl
    rw [hgd, Finset.image_image]
    have hne' : arrays[k] ≠ [] := hne _ (List.getElem_mem hlt)
    have hs := gaps_shift_sum ((len : Int) + 2 * (L - 1)) (st k) _ (hst k _ hget)
    have hd := hdec k _ hget
    obtain ⟨a, l, hal⟩ : ∃ a l, (arrays[k]).map (st k) = a :: l := by
      cases hc : (arrays[k]).map (st k) with
      | nil => exact absurd (List.map_eq_nil_iff.1 hc) hne'
      | cons a l => exact ⟨a, l, rfl⟩
    rw [hal] at hd hs ⊢
    have := card_lines_touched len L hlen hL (base k) a l hd
    have hpos := Int.emod_nonneg (base k + a + len - 1) (ne_of_gt hL')
    have he : ((touched len (a :: l)).image (lineOf base L ∘ fun x => (k, x))) = ((touched len (a :: l)).image fun x => (base k + x) / (L : Int)) := rfl
    rw [he]
    omega
  refine le_trans h1 ?_
  rw [sum_range_getD (fun l => ((len : Int) + 2 * (L - 1)) + ((gaps l).map (fun d => min d ((len : Int) + 2 * (L - 1)))).sum)]
  apply le_of_eq
  clear h1 hne hdec hst
  induction arrays with
  | nil => simp
  | cons a l ih =>
    rw [List.map_cons, List.sum_cons, ih, List.flatMap_cons, List.map_append, List.sum_append,
      List.length_cons]
    push_cast
    ring

/-- The sum of truncated distances in bytes. -/
theorem sum_min_scaled (ds : List (Dist K)) (arrays : List (List Int)) (s : Int) (hs : 0 ≤ s) (m : Int)
    (hds : (ds.map (·.val)).Perm ((arrays.flatMap gaps).map (s * ·))) :
    (ds.map (fun d => min d.val (s * m))).sum = s * ((arrays.flatMap gaps).map (fun d => min d m)).sum := by
  have h1 : ds.map (fun d => min d.val (s * m)) = (ds.map (·.val)).map (fun v => min v (s * m)) := by simp [Function.comp_def]
  rw [h1, (hds.map _).sum_eq, List.map_map, ← List.sum_map_mul_left]
  congr 1
  apply List.map_congr_left
  intro g _
  simp only [Function.comp]
  rw [mul_min_of_nonneg _ _ hs]

/-! ### Numbers of misses -/

theorem misses_append {α : Type} [DecidableEq α] (cap : Nat) (pre xs ys : List α) :
    misses cap pre (xs ++ ys) = misses cap pre xs + misses cap (pre ++ xs) ys := by
  induction xs generalizing pre with
  | nil => simp [misses]
  | cons x xs ih =>
    rw [List.cons_append, misses, misses, ih, List.append_assoc]
    simp only [List.singleton_append]
    omega

/-- If only first occurrences of elements of a set can miss, there are at most as many misses as the set has elements. -/
theorem misses_le_card {α β : Type} [DecidableEq α] [DecidableEq β] (cap : Nat) (f : α → β) (pre : List β) (S : Finset α) (l : List α)
    (h : ∀ A a B, l = A ++ a :: B → f a ∉ lruRun cap (pre ++ A.map f) → a ∈ S ∧ a ∉ A) : misses cap pre (l.map f) ≤ S.card := by
  suffices H : ∀ (B A : List α), l = A ++ B → misses cap (pre ++ A.map f) (B.map f) ≤ (S \ A.toFinset).card by
    simpa using H l [] rfl
  intro B
  induction B with
  | nil => intro A _; simp [misses]
  | cons x B ih =>
    intro A hl
    have hi := ih (A ++ [x]) (by rw [hl]; simp)
    rw [List.map_append, ← List.append_assoc] at hi
    rw [List.map_cons, misses]
    have hsub : S \ (A ++ [x]).toFinset ⊆ S \ A.toFinset := by
      intro y hy
      rw [Finset.mem_sdiff] at hy ⊢
      exact ⟨hy.1, fun hA => hy.2 (by rw [List.mem_toFinset] at hA ⊢; exact List.mem_append_left _ hA)⟩
    by_cases hx : f x ∈ lruRun cap (pre ++ A.map f)
    · rw [if_pos hx, Nat.zero_add]
      exact le_trans hi (Finset.card_le_card hsub)
    · rw [if_neg hx]
      obtain ⟨h1, h2⟩ := h A x B hl hx
      have hmem : x ∈ S \ A.toFinset := Finset.mem_sdiff.2 ⟨h1, by simpa using h2⟩
      have hss : S \ (A ++ [x]).toFinset ⊆ (S \ A.toFinset).erase x := by
        intro y hy
        refine Finset.mem_erase.2 ⟨?_, hsub hy⟩
        rintro rfl
        exact (Finset.mem_sdiff.1 hy).2 (by simp)
      have := Finset.card_le_card hss
      have := Finset.card_erase_lt_of_mem hmem
      simp only [List.map_cons, List.map_nil] at hi
      omega

/-- The misses of consecutive iterations. -/
theorem misses_iterations {β : Type} [DecidableEq β] (cap : Nat) (ord : Nat → List StencilAccess) (f : Nat × Int → β) (S : Nat → Finset StencilAccess)
    (n k : Nat) (h : ∀ m, n ≤ m → m < n + k → ∀ A a B, ord m = A ++ a :: B →
      f (elemAt m a) ∉ lruRun cap ((sweep ord m ++ A.map (elemAt m)).map f) → a ∈ S m ∧ a ∉ A) :
    misses cap ((sweep ord n).map f) (((List.range' n k).flatMap fun m => (ord m).map (elemAt m)).map f) ≤ ∑ m ∈ Finset.range k, (S (n + m)).card := by
  induction k with
  | zero => simp [misses]
  | succ k ih =>
    rw [List.range'_concat, List.flatMap_append, List.map_append, misses_append, Finset.sum_range_succ]
    refine Nat.add_le_add (ih fun m h1 h2 => h m h1 (by omega)) ?_
    simp only [List.flatMap_cons, List.flatMap_nil, List.append_nil, Nat.one_mul, List.map_map]
    apply misses_le_card
    intro A a B hsplit hmiss
    refine h (n + k) (by omega) (by omega) A a B hsplit fun hm => hmiss ?_
    have hs := sweep_split ord n (n + k) (by omega)
    rw [Nat.add_sub_cancel_left] at hs
    rw [hs] at hm
    simpa using hm

/-- Among `L` consecutive numbers exactly one is at the beginning of a line. -/
theorem one_start (L : Nat) (c : Int) : ((Finset.range L).filter fun m : Nat => (c + (m : Int)) % (L : Int) = 0).card ≤ 1 := by
  rw [Finset.card_le_one]
  intro a ha b hb
  simp only [Finset.mem_filter, Finset.mem_range] at ha hb
  obtain ⟨x, hx⟩ := Int.dvd_of_emod_eq_zero ha.2
  obtain ⟨y, hy⟩ := Int.dvd_of_emod_eq_zero hb.2
  have he : (a : Int) - b = L * (x - y) := by rw [Int.mul_sub, ← hx, ← hy]; ring
  have hlt : |(a : Int) - b| < L := by rw [abs_lt]; omega
  have := Int.eq_zero_of_abs_lt_dvd ⟨x - y, he⟩ hlt
  omega

/-- Accesses that are not close behind another access to their array. -/
def Leading (tn : Nat) (offs : List Int) (o : Int) : Prop := o ∈ offs ∧ ∀ o' ∈ offs, o < o' → (tn : Int) < o' - o

open Classical in
theorem card_leading (tn : Nat) (offs : List Int) (hne : offs ≠ []) (h : offs.Pairwise (fun a b => b ≤ a)) :
    (offs.toFinset.filter (Leading tn offs)).card ≤ 1 + ((gaps offs).filter (fun g => decide ((tn : Int) < g))).length := by
  induction offs using List.reverseRecOn with
  | nil => exact absurd rfl hne
  | append_singleton l o ih =>
    rcases List.eq_nil_or_concat l with rfl | ⟨l', p, rfl⟩
    · refine le_trans (Finset.card_filter_le _ _) ?_
      simp
    · rw [List.concat_eq_append] at *
      have hp := List.pairwise_append.1 h
      have ih' := ih (by simp) hp.1
      have hpo : o ≤ p := hp.2.2 p (by simp) o (by simp)
      have hg : ∀ l : List Int, gaps (l ++ [p] ++ [o]) = gaps (l ++ [p]) ++ [p - o] := by
        intro l
        induction l with
        | nil => rfl
        | cons x l ihl =>
          cases l with
          | nil => rfl
          | cons y l => simpa [gaps] using ihl
      rw [hg, List.filter_append, List.length_append]
      -- leading accesses of the longer list
      have hsub : ((l' ++ [p] ++ [o]).toFinset.filter (Leading tn (l' ++ [p] ++ [o]))) ⊆
          ((l' ++ [p]).toFinset.filter (Leading tn (l' ++ [p]))) ∪ (if (tn : Int) < p - o then {o} else ∅) := by
        intro x hx
        rw [Finset.mem_filter] at hx
        obtain ⟨-, hm, hl⟩ := hx
        rw [Finset.mem_union, Finset.mem_filter]
        by_cases hx' : x ∈ l' ++ [p]
        · left
          exact ⟨List.mem_toFinset.2 hx', hx', fun o' ho' => hl o' (List.mem_append_left _ ho')⟩
        · have hxo : x = o := by
            rcases List.mem_append.1 hm with h | h
            · exact absurd h hx'
            · simpa using h
          subst hxo
          right
          have hlt : x < p := by
            rcases lt_or_eq_of_le hpo with h | h
            · exact h
            · exact absurd (by simp [h]) hx'
          rw [if_pos (hl p (by simp) hlt)]
          simp
      refine le_trans (Finset.card_le_card hsub) (le_trans (Finset.card_union_le _ _) ?_)
      by_cases hc : (tn : Int) < p - o
      · rw [if_pos hc, List.filter_cons_of_pos (by simpa using hc)]
        simp only [Finset.card_singleton, List.length_singleton, List.filter_nil]
        omega
      · rw [if_neg hc, Finset.card_empty]
        omega

open Classical in
/-- All accesses that are not close behind another access. -/
noncomputable def leadingAll (tn : Nat) (arrays : List (List Int)) : Finset StencilAccess :=
  (Finset.range arrays.length).biUnion fun k => (((arrays.getD k []).toFinset.filter (Leading tn (arrays.getD k []))).image fun o => ⟨k, o⟩)

theorem mem_leadingAll (tn : Nat) (arrays : List (List Int)) (a : StencilAccess) (offs : List Int) (hk : arrays[a.arr]? = some offs)
    (hl : Leading tn offs a.off) : a ∈ leadingAll tn arrays := by
  classical
  unfold leadingAll
  have hlt : a.arr < arrays.length := (List.getElem?_eq_some_iff.1 hk).1
  have hg : arrays.getD a.arr [] = offs := by rw [List.getD_eq_getElem?_getD, hk]; rfl
  refine Finset.mem_biUnion.2 ⟨a.arr, by simpa using hlt, Finset.mem_image.2 ⟨a.off, ?_, rfl⟩⟩
  rw [Finset.mem_filter, hg]
  exact ⟨by simpa using hl.1, hl⟩

theorem card_leadingAll (tn : Nat) (arrays : List (List Int)) (hne : ∀ offs ∈ arrays, offs ≠ [])
    (hdec : ∀ offs ∈ arrays, offs.Pairwise (fun a b => b ≤ a)) :
    (leadingAll tn arrays).card ≤ arrays.length + ((arrays.flatMap gaps).filter (fun g => decide ((tn : Int) < g))).length := by
  classical
  unfold leadingAll
  refine le_trans Finset.card_biUnion_le ?_
  have h1 : ∑ k ∈ Finset.range arrays.length, ((((arrays.getD k []).toFinset.filter (Leading tn (arrays.getD k []))).image fun o => (⟨k, o⟩ : StencilAccess))).card ≤
      ∑ k ∈ Finset.range arrays.length, (1 + ((gaps (arrays.getD k [])).filter (fun g => decide ((tn : Int) < g))).length) := by
    apply Finset.sum_le_sum
    intro k hk
    have hlt : k < arrays.length := by simpa using hk
    have hgd : arrays.getD k [] = arrays[k] := by rw [List.getD_eq_getElem?_getD, List.getElem?_eq_getElem hlt]; rfl
    refine le_trans Finset.card_image_le ?_
    rw [hgd]
    exact card_leading tn _ (hne _ (List.getElem_mem hlt)) (hdec _ (List.getElem_mem hlt))
  refine le_trans h1 (le_of_eq ?_)
  clear h1 hne hdec
  induction arrays with
  | nil => simp
  | cons a l ih =>
    rw [List.length_cons, Finset.sum_range_succ', List.flatMap_cons, List.filter_append, List.length_append]
    simp only [List.getD_cons_succ, List.getD_cons_zero]
    rw [ih]
    omega

end Verif.LayerCond
