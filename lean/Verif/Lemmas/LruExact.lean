import Verif.Lemmas.LruMiss
import Verif.Spec.LruExact

/-! Lemmas for C149: the exact number of elements between two accesses to the same element. -/

namespace Verif.LayerCond

open Verif.Spec

theorem card_touched_eq (len : Nat) (starts : List Int) (h : starts.Pairwise (fun a b => b ≤ a)) (hne : starts ≠ []) :
    ((touched len starts).card : Int) = len + ((gaps starts).map (fun d => min d (len : Int))).sum :=
  le_antisymm (card_touched len starts h hne) (card_touched_ge len starts h hne)

theorem gaps_split (l : List Int) (a b : Int) (r : List Int) : gaps (l ++ a :: b :: r) = gaps (l ++ [a]) ++ (a - b) :: gaps (b :: r) := by
  induction l with
  | nil => simp [gaps]
  | cons x l ih =>
    cases l with
    | nil => simp [gaps]
    | cons y l => simpa [gaps] using ih

theorem card_window_sum (arrays : List (List Int)) (st : Nat → Int → Int) (len : Nat) (hne : ∀ offs ∈ arrays, offs ≠ [])
    (hdec : ∀ (k : Nat) (offs : List Int), arrays[k]? = some offs → (offs.map (st k)).Pairwise (fun a b => b ≤ a)) :
    ((window arrays st len).card : Int) =
      ∑ k ∈ Finset.range arrays.length, ((len : Int) + ((gaps ((arrays.getD k []).map (st k))).map (fun d => min d (len : Int))).sum) := by
  unfold window
  rw [Finset.card_biUnion, Nat.cast_sum]
  · apply Finset.sum_congr rfl
    intro k hk
    have hlt : k < arrays.length := by simpa using hk
    have hget : arrays[k]? = some arrays[k] := List.getElem?_eq_getElem hlt
    have hgd : arrays.getD k [] = arrays[k] := by rw [List.getD_eq_getElem?_getD, hget]; rfl
    rw [hgd, Finset.card_image_of_injective _ (fun a b h => by simpa using h)]
    exact card_touched_eq len _ (hdec k _ hget) (by simpa using hne _ (List.getElem_mem hlt))
  · intro i _ j _ hij
    simp only [Function.onFun]
    rw [Finset.disjoint_left]
    intro x hx hx'
    rw [Finset.mem_image] at hx hx'
    obtain ⟨_, _, rfl⟩ := hx
    obtain ⟨_, _, he⟩ := hx'
    exact hij (congrArg Prod.fst he).symm

theorem sum_gaps (arrays : List (List Int)) (len : Int) :
    ∑ k ∈ Finset.range arrays.length, (len + ((gaps (arrays.getD k [])).map (fun d => min d len)).sum) =
      len * arrays.length + ((arrays.flatMap gaps).map (fun d => min d len)).sum := by
  rw [sum_range_getD (fun l => len + ((gaps l).map (fun d => min d len)).sum)]
  induction arrays with
  | nil => simp
  | cons a l ih =>
    rw [List.map_cons, List.sum_cons, ih, List.flatMap_cons, List.map_append, List.sum_append, List.length_cons]
    push_cast
    ring

/-- The window of an access that trails its predecessor by `len`: one element less than the requirement says. -/
theorem card_window_exact (arrays : List (List Int)) (st : Nat → Int → Int) (len : Nat) (hne : ∀ offs ∈ arrays, offs ≠ [])
    (hdec : ∀ (k : Nat) (offs : List Int), arrays[k]? = some offs → (offs.map (st k)).Pairwise (fun a b => b ≤ a))
    (k : Nat) (l r : List Int) (a b : Int) (hk : arrays[k]? = some (l ++ a :: b :: r)) (hab : a - b = len)
    (hother : ∀ (j : Nat) (offs : List Int), j ≠ k → arrays[j]? = some offs → ∃ c, ∀ o ∈ offs, st j o = c + o)
    (c : Int) (hl : ∀ o ∈ l ++ [a], st k o = c + o) (hr : ∀ o ∈ b :: r, st k o = c + 1 + o) :
    ((window arrays st len).card : Int) + 1 = len * arrays.length + ((arrays.flatMap gaps).map (fun d => min d (len : Int))).sum := by
  rw [card_window_sum arrays st len hne hdec, ← sum_gaps]
  have hlt : k < arrays.length := (List.getElem?_eq_some_iff.1 hk).1
  have hkr : k ∈ Finset.range arrays.length := by simpa using hlt
  rw [← Finset.add_sum_erase _ _ hkr, ← Finset.add_sum_erase _ _ hkr]
  have hrest : ∑ j ∈ (Finset.range arrays.length).erase k, ((len : Int) + ((gaps ((arrays.getD j []).map (st j))).map (fun d => min d (len : Int))).sum) =
      ∑ j ∈ (Finset.range arrays.length).erase k, ((len : Int) + ((gaps (arrays.getD j [])).map (fun d => min d (len : Int))).sum) := by
    apply Finset.sum_congr rfl
    intro j hj
    obtain ⟨hjk, hj⟩ := Finset.mem_erase.1 hj
    have hj : j < arrays.length := by simpa using hj
    have hget : arrays[j]? = some arrays[j] := List.getElem?_eq_getElem hj
    have hgd : arrays.getD j [] = arrays[j] := by rw [List.getD_eq_getElem?_getD, hget]; rfl
    obtain ⟨c, hc⟩ := hother j _ hjk hget
    rw [hgd, List.map_congr_left hc, gaps_shift]
  have hone : ((gaps ((arrays.getD k []).map (st k))).map (fun d => min d (len : Int))).sum + 1 =
      ((gaps (arrays.getD k [])).map (fun d => min d (len : Int))).sum := by
    have hgd : arrays.getD k [] = l ++ a :: b :: r := by rw [List.getD_eq_getElem?_getD, hk]; rfl
    have h1 : (l ++ a :: b :: r).map (st k) = (l.map (c + ·)) ++ (c + a) :: (c + 1 + b) :: r.map ((c + 1) + ·) := by
      rw [List.map_append, List.map_cons, List.map_cons, hl a (by simp), hr b (by simp),
        List.map_congr_left (fun o ho => hl o (by simp [ho])), List.map_congr_left (fun o ho => hr o (by simp [ho]))]
    have h2 : (l.map (c + ·)) ++ [c + a] = (l ++ [a]).map (c + ·) := by simp
    have h3 : (c + 1 + b) :: r.map ((c + 1) + ·) = (b :: r).map ((c + 1) + ·) := by simp
    rw [hgd, h1, gaps_split, gaps_split, h2, h3, gaps_shift, gaps_shift]
    simp only [List.map_append, List.map_cons, List.sum_append, List.sum_cons]
    have : min (c + a - (c + 1 + b)) (len : Int) + 1 = min (a - b) (len : Int) := by omega
    omega
  rw [hrest]
  omega

/-- The requirement of a distance of `g` elements. -/
theorem requirement_elements (s : Int) (hs : 0 < s) (arrays : List (List Int)) (hdec : ∀ offs ∈ arrays, offs.Pairwise (fun a b => b ≤ a)) (g : Int)
    (hg : 0 ≤ g) :
    requirement (stencilDists s arrays) arrays.length (Sizes.number (s * g)) =
      s * (g * arrays.length + ((arrays.flatMap gaps).map (fun d => min d g)).sum) := by
  rw [stencilDists_eq, Sizes.requirement_min _ (by
    intro x hx
    obtain ⟨y, hy, rfl⟩ := List.mem_map.1 hx
    exact Int.mul_nonneg hs.le (flatMap_gaps_nonneg arrays hdec y hy)) _ _ (Int.mul_nonneg hs.le hg)]
  have : ((arrays.flatMap gaps).map (s * ·)).map (fun x => min x (s * g)) = ((arrays.flatMap gaps).map (fun d => min d g)).map (s * ·) := by
    simp only [List.map_map]
    apply List.map_congr_left
    intro x _
    simp only [Function.comp]
    rcases le_total x g with h | h
    · rw [min_eq_left h, min_eq_left (mul_le_mul_of_nonneg_left h hs.le)]
    · rw [min_eq_right h, min_eq_right (mul_le_mul_of_nonneg_left h hs.le)]
  rw [this, List.sum_map_mul_left, List.map_id']
  ring

/-- In the usual order, an access is followed immediately by the next one of its array. -/
theorem inOrder_adjacent (arrays : List (List Int)) (hdec : ∀ offs ∈ arrays, offs.Pairwise (fun a b => b < a)) (ord : List StencilAccess)
    (hord : Uses arrays ord) (hin : InOrder ord) (k : Nat) (l r : List Int) (a b : Int) (hk : arrays[k]? = some (l ++ a :: b :: r))
    (A B : List StencilAccess) (hsplit : ord = A ++ ⟨k, b⟩ :: B) : ∃ C, B = ⟨k, a⟩ :: C := by
  have hd := hdec _ (List.mem_of_getElem? hk)
  have hab : b < a := by
    rw [List.pairwise_append] at hd
    exact (List.pairwise_cons.1 hd.2.1).1 b (by simp)
  have hasc := hin.ascending
  rw [hsplit, List.pairwise_append, List.pairwise_cons] at hasc
  have hm : (⟨k, a⟩ : StencilAccess) ∈ B := by
    have hm : (⟨k, a⟩ : StencilAccess) ∈ ord := (hord _).2 ⟨_, hk, by simp⟩
    rw [hsplit, List.mem_append, List.mem_cons] at hm
    rcases hm with hm | hm | hm
    · have : a < b := hasc.2.2 _ hm ⟨k, b⟩ (by simp) rfl
      omega
    · have := congrArg StencilAccess.off hm
      simp only at this
      omega
    · exact hm
  obtain ⟨B1, C, rfl⟩ := List.append_of_mem hm
  cases B1 with
  | nil => exact ⟨C, rfl⟩
  | cons y B1 =>
    exfalso
    obtain ⟨ky, oy⟩ := y
    have hky : ky = k := by
      refine hin.grouped ⟨k, b⟩ ⟨ky, oy⟩ ⟨k, a⟩ ?_ rfl
      rw [hsplit]
      refine List.Sublist.trans ?_ (List.sublist_append_right _ _)
      refine List.Sublist.cons_cons _ (List.Sublist.cons_cons _ ?_)
      exact List.singleton_sublist.2 (by simp)
    subst hky
    have h1 : b < oy := hasc.2.1.1 ⟨ky, oy⟩ (by simp) rfl
    have h2 : oy < a := by
      have := hasc.2.1.2
      rw [List.cons_append, List.pairwise_cons] at this
      exact this.1 ⟨ky, a⟩ (by simp) rfl
    obtain ⟨offs, ho, hmem⟩ := (hord ⟨ky, oy⟩).1 (by rw [hsplit]; simp)
    simp only at ho hmem
    rw [hk] at ho
    cases ho
    rw [List.pairwise_append, List.pairwise_cons, List.pairwise_cons] at hd
    rcases List.mem_append.1 hmem with h | h
    · have := hd.2.2 oy h a (by simp)
      omega
    · rcases List.mem_cons.1 h with rfl | h
      · omega
      · rcases List.mem_cons.1 h with rfl | h
        · omega
        · have := hd.2.1.2.1 oy h
          omega

/-- In the usual order, another array is accessed completely before or completely after. -/
theorem inOrder_other (arrays : List (List Int)) (ord : List StencilAccess) (hord : Uses arrays ord) (hin : InOrder ord) (k : Nat) (a b : Int)
    (A C : List StencilAccess) (hsplit : ord = A ++ ⟨k, b⟩ :: ⟨k, a⟩ :: C) (j : Nat) (hj : j ≠ k) (offs : List Int) (ho : arrays[j]? = some offs) :
    (∀ o ∈ offs, (⟨j, o⟩ : StencilAccess) ∈ A) ∨ ∀ o ∈ offs, (⟨j, o⟩ : StencilAccess) ∉ A ∧ (⟨j, o⟩ : StencilAccess) ∈ C := by
  have hmem : ∀ o ∈ offs, (⟨j, o⟩ : StencilAccess) ∈ A ∨ (⟨j, o⟩ : StencilAccess) ∈ C := by
    intro o h
    have : (⟨j, o⟩ : StencilAccess) ∈ ord := (hord _).2 ⟨offs, ho, h⟩
    rw [hsplit] at this
    simp only [List.mem_append, List.mem_cons, StencilAccess.mk.injEq, hj, false_and, false_or] at this
    exact this
  by_cases hA : ∃ o ∈ offs, (⟨j, o⟩ : StencilAccess) ∈ A
  · left
    obtain ⟨o, ho1, ho2⟩ := hA
    intro o' ho'
    rcases hmem o' ho' with h | h
    · exact h
    · exfalso
      refine hj (hin.grouped ⟨j, o⟩ ⟨k, b⟩ ⟨j, o'⟩ ?_ rfl).symm
      rw [hsplit, show A ++ (⟨k, b⟩ : StencilAccess) :: ⟨k, a⟩ :: C = A ++ ([⟨k, b⟩, ⟨k, a⟩] ++ C) by simp,
        show [(⟨j, o⟩ : StencilAccess), ⟨k, b⟩, ⟨j, o'⟩] = [⟨j, o⟩] ++ ([⟨k, b⟩] ++ [⟨j, o'⟩]) by rfl]
      refine (List.singleton_sublist.2 ho2).append (List.Sublist.append ?_ (List.singleton_sublist.2 h))
      exact List.singleton_sublist.2 (by simp)
  · right
    intro o h
    have hn : (⟨j, o⟩ : StencilAccess) ∉ A := fun h' => hA ⟨o, h, h'⟩
    exact ⟨hn, (hmem o h).resolve_left hn⟩

/-- In the usual order, an access hits exactly if the requirement of its distance exceeds the cache by at most one element. -/
theorem hits_exact (arrays : List (List Int)) (hne : ∀ offs ∈ arrays, offs ≠ []) (hdec : ∀ offs ∈ arrays, offs.Pairwise (fun a b => b < a))
    (s : Int) (hs : 0 < s) (cap : Nat) (ord : List StencilAccess) (hord : Uses arrays ord) (hin : InOrder ord) (k : Nat) (l r : List Int) (a b : Int)
    (hk : arrays[k]? = some (l ++ a :: b :: r)) (n : Nat) (hn : a - b ≤ n) (A B : List StencilAccess) (hsplit : ord = A ++ ⟨k, b⟩ :: B) :
    Hits cap (fun _ => ord) n A ⟨k, b⟩ ↔ requirement (stencilDists s arrays) arrays.length (Sizes.number (s * (a - b))) ≤ s * (cap + 1) := by
  have hdec' : ∀ offs ∈ arrays, offs.Pairwise (fun a b => b ≤ a) := fun o ho => (hdec o ho).imp fun h => h.le
  have hd := hdec _ (List.mem_of_getElem? hk)
  rw [List.pairwise_append, List.pairwise_cons, List.pairwise_cons] at hd
  have hab : b < a := hd.2.1.1 b (by simp)
  obtain ⟨C, rfl⟩ := inOrder_adjacent arrays hdec ord hord hin k l r a b hk A B hsplit
  obtain ⟨d, hd1⟩ : ∃ d : Nat, a - b = (d : Int) + 1 := ⟨(a - b - 1).toNat, by omega⟩
  have hasc := hin.ascending
  rw [hsplit, List.pairwise_append, List.pairwise_cons, List.pairwise_cons] at hasc
  -- the offsets of this array
  have hoff : ∀ o, (⟨k, o⟩ : StencilAccess) ∈ ord → o ∈ l ++ a :: b :: r := by
    intro o ho
    obtain ⟨offs, h1, h2⟩ := (hord _).1 ho
    simp only at h1 h2
    rw [hk] at h1
    cases h1
    exact h2
  have hoff2 : ∀ o, (⟨k, o⟩ : StencilAccess) ∈ ord → o = a ∨ o = b ∨ a < o ∨ o < b := by
    intro o ho
    rcases List.mem_append.1 (hoff o ho) with h | h
    · exact .inr (.inr (.inl (hd.2.2 o h a (by simp))))
    · rcases List.mem_cons.1 h with h | h
      · exact .inl h
      · rcases List.mem_cons.1 h with h | h
        · exact .inr (.inl h)
        · exact .inr (.inr (.inr (hd.2.1.2.1 o h)))
  have hbA : (⟨k, b⟩ : StencilAccess) ∉ A := fun h => by
    have : b < b := hasc.2.2 _ h ⟨k, b⟩ (by simp) rfl
    omega
  have haC : (⟨k, a⟩ : StencilAccess) ∉ C := fun h => by
    have : a < a := hasc.2.1.2.1 _ h rfl
    omega
  have hAord : ∀ x ∈ A, x ∈ ord := fun x hx => by rw [hsplit]; simp [hx]
  have hCord : ∀ x ∈ C, x ∈ ord := fun x hx => by rw [hsplit]; simp [hx]
  -- the accesses between the two
  obtain ⟨c, hc⟩ : ∃ c : Nat, n = c + (d + 1) := ⟨n - (d + 1), by omega⟩
  subst hc
  let t : List (Nat × Int) := C.map (elemAt c) ++ (List.range' (c + 1) d).flatMap (fun m => ord.map (elemAt m)) ++ A.map (elemAt (c + (d + 1)))
  have htrace : sweep (fun _ => ord) (c + (d + 1)) ++ A.map (elemAt (c + (d + 1))) =
      (sweep (fun _ => ord) c ++ (A ++ [(⟨k, b⟩ : StencilAccess)]).map (elemAt c)) ++ [elemAt c ⟨k, a⟩] ++ t := by
    rw [sweep_split (fun _ => ord) c (c + (d + 1)) (by omega), show c + (d + 1) - c = d + 1 by omega, List.range'_succ, List.flatMap_cons]
    conv_lhs => rw [show ord.map (elemAt c) = (A ++ ⟨k, b⟩ :: ⟨k, a⟩ :: C).map (elemAt c) by rw [← hsplit]]
    simp [t]
  have hx : elemAt (c + (d + 1)) ⟨k, b⟩ = elemAt c ⟨k, a⟩ := by
    simp only [elemAt, Prod.mk.injEq, true_and]
    push_cast
    omega
  have hxt : elemAt c ⟨k, a⟩ ∉ t := by
    intro hmem
    simp only [t, List.mem_append, List.mem_map, List.mem_flatMap, List.mem_range'_1] at hmem
    rcases hmem with (⟨⟨j, o⟩, h1, h2⟩ | ⟨m, hm, ⟨j, o⟩, h1, h2⟩) | ⟨⟨j, o⟩, h1, h2⟩
    · simp only [elemAt, Prod.mk.injEq] at h2
      obtain ⟨rfl, h2⟩ := h2
      have : o = a := by omega
      exact haC (this ▸ h1)
    · simp only [elemAt, Prod.mk.injEq] at h2
      obtain ⟨rfl, h2⟩ := h2
      rcases hoff2 o h1 with h | h | h | h <;> omega
    · simp only [elemAt, Prod.mk.injEq] at h2
      obtain ⟨rfl, h2⟩ := h2
      have : o = b := by push_cast at h2; omega
      exact hbA (this ▸ h1)
  -- the elements touched
  let sh : Nat → Int → Int := fun j o => if (⟨j, o⟩ : StencilAccess) ∈ A ∨ (j = k ∧ o = b) then 1 else 0
  let st : Nat → Int → Int := fun j o => (c : Int) + sh j o + o
  have hsh : ∀ j o, (sh j o = 1 ∧ ((⟨j, o⟩ : StencilAccess) ∈ A ∨ (j = k ∧ o = b))) ∨ (sh j o = 0 ∧ ¬((⟨j, o⟩ : StencilAccess) ∈ A ∨ (j = k ∧ o = b))) := by
    intro j o
    by_cases h : (⟨j, o⟩ : StencilAccess) ∈ A ∨ (j = k ∧ o = b)
    · exact .inl ⟨if_pos h, h⟩
    · exact .inr ⟨if_neg h, h⟩
  have hwin : t.toFinset = (window arrays st (d + 1)).erase (elemAt c ⟨k, a⟩) := by
    ext y
    rw [List.mem_toFinset, Finset.mem_erase]
    constructor
    · intro hy
      refine ⟨fun he => hxt (he ▸ hy), ?_⟩
      have key : ∃ (m : Int) (e : StencilAccess), e ∈ ord ∧ y = (e.arr, m + e.off) ∧ (c : Int) + sh e.arr e.off ≤ m ∧ m < (c : Int) + (d + 1) + sh e.arr e.off := by
        simp only [t, List.mem_append, List.mem_map, List.mem_flatMap, List.mem_range'_1] at hy
        rcases hy with (⟨e, h1, rfl⟩ | ⟨m, hm, e, h1, rfl⟩) | ⟨e, h1, rfl⟩
        · refine ⟨c, e, hCord e h1, rfl, ?_⟩
          have hnot : ¬(e ∈ A ∨ (e.arr = k ∧ e.off = b)) := by
            rintro (h | ⟨h, h'⟩)
            · have : e.off < e.off := hasc.2.2 e h e (by simp [h1]) rfl
              omega
            · have h3 : b < e.off := hasc.2.1.1 e (by simp [h1]) h.symm
              omega
          have : sh e.arr e.off = 0 := if_neg hnot
          omega
        · refine ⟨m, e, h1, rfl, ?_⟩
          rcases hsh e.arr e.off with h | h <;> omega
        · refine ⟨((c + (d + 1) : Nat) : Int), e, hAord e h1, rfl, ?_⟩
          have : sh e.arr e.off = 1 := if_pos (.inl h1)
          push_cast
          omega
      obtain ⟨m, e, he, rfl, h1, h2⟩ := key
      obtain ⟨offs, ho, hm⟩ := (hord e).1 he
      refine mem_window arrays st _ e.arr offs e.off _ ho hm ?_ ?_
      · simp only [st]; omega
      · simp only [st]; push_cast; omega
    · rintro ⟨hyx, hy⟩
      unfold window at hy
      rw [Finset.mem_biUnion] at hy
      obtain ⟨j, hj, hy⟩ := hy
      rw [Finset.mem_image] at hy
      obtain ⟨x, hx', rfl⟩ := hy
      rw [mem_touched] at hx'
      obtain ⟨p, hp, h1, h2⟩ := hx'
      obtain ⟨o, ho, rfl⟩ := List.mem_map.1 hp
      have hlt : j < arrays.length := by simpa using hj
      have hget : arrays[j]? = some arrays[j] := List.getElem?_eq_getElem hlt
      rw [List.getD_eq_getElem?_getD, hget] at ho
      have hm : (⟨j, o⟩ : StencilAccess) ∈ ord := (hord _).2 ⟨_, hget, ho⟩
      simp only [st] at h1 h2
      push_cast at h2
      simp only [t, List.mem_append, List.mem_map, List.mem_flatMap, List.mem_range'_1]
      by_cases hmid : (c : Int) + 1 ≤ x - o ∧ x - o < c + 1 + d
      · refine .inl (.inr ⟨(x - o).toNat, by omega, ⟨j, o⟩, hm, ?_⟩)
        simp only [elemAt, Prod.mk.injEq, true_and]
        omega
      · rcases hsh j o with ⟨hs1, h | ⟨rfl, rfl⟩⟩ | ⟨hs0, h⟩
        · refine .inr ⟨⟨j, o⟩, h, ?_⟩
          simp only [elemAt, Prod.mk.injEq, true_and]
          push_cast
          omega
        · exfalso
          apply hyx
          simp only [elemAt, Prod.mk.injEq, true_and]
          omega
        · rw [not_or] at h
          rw [hsplit, List.mem_append, List.mem_cons, List.mem_cons] at hm
          rcases hm with hm | hm | hm | hm
          · exact absurd hm h.1
          · exact absurd ⟨congrArg StencilAccess.arr hm, congrArg StencilAccess.off hm⟩ h.2
          · exfalso
            have e1 : j = k := congrArg StencilAccess.arr hm
            have e2 : o = a := congrArg StencilAccess.off hm
            subst e1 e2
            apply hyx
            simp only [elemAt, Prod.mk.injEq, true_and]
            omega
          · refine .inl (.inl ⟨⟨j, o⟩, hm, ?_⟩)
            simp only [elemAt, Prod.mk.injEq, true_and]
            omega
  have hshk : ∀ o ∈ l ++ a :: b :: r, sh k o = if o ≤ b then 1 else 0 := by
    intro o ho
    have hm : (⟨k, o⟩ : StencilAccess) ∈ ord := (hord _).2 ⟨_, hk, ho⟩
    rcases hsh k o with ⟨h1, h⟩ | ⟨h1, h⟩
    · rw [h1, if_pos]
      rcases h with h | ⟨-, h⟩
      · have : o < b := hasc.2.2 _ h ⟨k, b⟩ (by simp) rfl
        omega
      · omega
    · rw [h1, if_neg]
      rw [not_or] at h
      rw [hsplit, List.mem_append, List.mem_cons, List.mem_cons] at hm
      rcases hm with hm | hm | hm | hm
      · exact absurd hm h.1
      · exact absurd ⟨rfl, congrArg StencilAccess.off hm⟩ h.2
      · have e2 : o = a := congrArg StencilAccess.off hm
        omega
      · have : b < o := hasc.2.1.1 _ (List.mem_cons_of_mem _ hm) rfl
        omega
  have hcard := card_window_exact arrays st (d + 1) hne (by
      intro j offs ho
      rw [List.pairwise_map]
      refine (hdec offs (List.mem_of_getElem? ho)).imp fun {x y} h => ?_
      simp only [st]
      rcases hsh j x with h1 | h1 <;> rcases hsh j y with h2 | h2 <;> omega)
    k l r a b hk (by push_cast; exact hd1) (by
      intro j offs hj ho
      rcases inOrder_other arrays ord hord hin k a b A C hsplit j hj offs ho with h | h
      · refine ⟨(c : Int) + 1, fun o hm => ?_⟩
        have : sh j o = 1 := if_pos (.inl (h o hm))
        simp only [st, this]
      · refine ⟨(c : Int), fun o hm => ?_⟩
        have : sh j o = 0 := if_neg (by rintro (h' | ⟨h', -⟩); exacts [(h o hm).1 h', hj h'])
        simp only [st, this]; omega)
    (c : Int) (by
      intro o ho
      have hm : o ∈ l ++ a :: b :: r := by simp at ho ⊢; tauto
      have : a ≤ o := by
        rcases List.mem_append.1 ho with h | h
        · exact (hd.2.2 o h a (by simp)).le
        · simp at h; omega
      simp only [st, hshk o hm, if_neg (show ¬o ≤ b by omega)]; omega) (by
      intro o ho
      have hm : o ∈ l ++ a :: b :: r := by simp at ho ⊢; tauto
      have : o ≤ b := by
        rcases List.mem_cons.1 ho with h | h
        · omega
        · exact (hd.2.1.2.1 o h).le
      simp only [st, hshk o hm, if_pos this])
  have hmemx : elemAt c ⟨k, a⟩ ∈ window arrays st (d + 1) := by
    refine mem_window arrays st _ k _ a _ hk (by simp) ?_ ?_
    · simp only [st, hshk a (by simp), if_neg (show ¬a ≤ b by omega)]; omega
    · simp only [st, hshk a (by simp), if_neg (show ¬a ≤ b by omega)]; push_cast; omega
  unfold Hits
  rw [htrace, hx, mem_lruRun cap _ t _ hxt, hwin, Finset.card_erase_of_mem hmemx, hd1,
    requirement_elements s hs arrays hdec' _ (by omega)]
  have hpos : 0 < (window arrays st (d + 1)).card := Finset.card_pos.2 ⟨_, hmemx⟩
  push_cast at hcard
  rw [← hcard]
  constructor
  · intro h
    exact mul_le_mul_of_nonneg_left (by omega) hs.le
  · intro h
    have := le_of_mul_le_mul_left h hs
    omega

/-! ### Counting -/

/-- How far an offset is behind the one before it in the list. -/
def lag : List Int → Int → Option Int
  | a :: b :: l, o => if o = b then some (a - b) else lag (b :: l) o
  | _, _ => none

theorem lag_some (offs : List Int) (o g : Int) (h : lag offs o = some g) : ∃ l a r, offs = l ++ a :: o :: r ∧ g = a - o := by
  induction offs using gaps.induct with
  | case2 l h' =>
    match l, h' with
    | [], _ => simp [lag] at h
    | [a], _ => simp [lag] at h
    | a :: b :: l, h => exact absurd rfl (h a b l)
  | case1 a b l ih =>
    rw [lag] at h
    split at h
    · rename_i he
      subst he
      cases h
      exact ⟨[], a, l, rfl, rfl⟩
    · obtain ⟨l', a', r, h1, h2⟩ := ih h
      exact ⟨a :: l', a', r, by rw [h1]; rfl, h2⟩

theorem lag_none (offs : List Int) (o : Int) (ho : o ∈ offs) (h : lag offs o = none) : ∃ tl, offs = o :: tl := by
  induction offs using gaps.induct with
  | case2 l h' =>
    match l, h', ho with
    | [], _, ho => simp at ho
    | [a], _, ho => exact ⟨[], by simp at ho; rw [ho]⟩
    | a :: b :: l, h, _ => exact absurd rfl (h a b l)
  | case1 a b l ih =>
    rw [lag] at h
    split at h
    · cases h
    · rename_i he
      rcases List.mem_cons.1 ho with rfl | ho
      · exact ⟨_, rfl⟩
      · obtain ⟨tl, h'⟩ := ih ho h
        exact absurd (List.cons.inj h').1.symm he

theorem lag_not_mem (offs : List Int) (o : Int) (ho : o ∉ offs) : lag offs o = none := by
  cases h : lag offs o with
  | none => rfl
  | some g =>
    obtain ⟨l, a, r, rfl, -⟩ := lag_some offs o g h
    simp at ho

/-- The accesses of an array that miss, where `P` says which distances do. -/
def lagging (P : Int → Bool) (offs : List Int) (o : Int) : Bool :=
  match lag offs o with
  | none => true
  | some g => P g

theorem countP_lagging (P : Int → Bool) (offs : List Int) (hne : offs ≠ []) (hdec : offs.Pairwise (fun a b => b < a)) :
    offs.countP (lagging P offs) = (gaps offs).countP P + 1 := by
  induction offs using gaps.induct with
  | case2 l h' =>
    match l, h', hne with
    | [], _, hne => exact absurd rfl hne
    | [a], _, _ => simp [lagging, lag, gaps]
    | a :: b :: l, h, _ => exact absurd rfl (h a b l)
  | case1 a b l ih =>
    have hd := List.pairwise_cons.1 hdec
    have hd2 := List.pairwise_cons.1 hd.2
    have ih := ih (by simp) hd.2
    have ha : a ∉ b :: l := fun h => lt_irrefl _ (hd.1 a h)
    have hb : b ∉ l := fun h => lt_irrefl _ (hd2.1 b h)
    have hab : ¬a = b := fun h => ha (by simp [h])
    have h1 : lagging P (a :: b :: l) a = true := by
      simp only [lagging, lag, if_neg hab, lag_not_mem _ _ ha]
    have h2 : lagging P (a :: b :: l) b = P (a - b) := by simp [lagging, lag]
    have h3 : lagging P (b :: l) b = true := by
      have : lag (b :: l) b = none := by
        cases l with
        | nil => simp [lag]
        | cons c l =>
          rw [lag, if_neg (fun h => hb (by simp [h])), lag_not_mem _ _ hb]
      simp only [lagging, this]
    have h4 : l.countP (lagging P (a :: b :: l)) = l.countP (lagging P (b :: l)) := by
      apply List.countP_congr
      intro x hx
      have : ¬x = b := fun h => hb (h ▸ hx)
      simp only [lagging, lag, if_neg this]
    rw [List.countP_cons_of_pos h3] at ih
    rw [List.countP_cons_of_pos h1, List.countP_cons, h2, h4, gaps, List.countP_cons]
    omega

theorem misses_count {α β : Type} [DecidableEq α] (cap : Nat) (f : β → α) (M : β → Bool) (L : List β) (pre : List α)
    (h : ∀ A a B, L = A ++ a :: B → (f a ∉ lruRun cap (pre ++ A.map f) ↔ M a = true)) : misses cap pre (L.map f) = L.countP M := by
  induction L generalizing pre with
  | nil => simp [misses]
  | cons x xs ih =>
    have h0 := h [] x xs rfl
    simp only [List.map_nil, List.append_nil] at h0
    have ih := ih (pre ++ [f x]) (fun A a B he => by
      have := h (x :: A) a B (by rw [he]; rfl)
      simpa using this)
    rw [List.map_cons, misses, ih, List.countP_cons]
    by_cases hm : M x = true
    · rw [if_neg (h0.2 hm), if_pos hm]
      omega
    · rw [if_neg hm, if_pos (by by_contra hc; exact hm (h0.1 hc))]
      omega

theorem map_range_getD {β : Type} (f : List Int → β) (arrays : List (List Int)) : (List.range arrays.length).map (fun k => f (arrays.getD k [])) = arrays.map f := by
  refine List.ext_getElem (by simp) fun i h1 h2 => ?_
  have : i < arrays.length := by simpa using h1
  simp [this]

theorem sum_countP (P : Int → Bool) (arrays : List (List Int)) :
    (arrays.map fun l => (gaps l).countP P + 1).sum = arrays.length + (arrays.flatMap gaps).countP P := by
  induction arrays with
  | nil => simp
  | cons a l ih =>
    rw [List.map_cons, List.sum_cons, ih, List.flatMap_cons, List.countP_append, List.length_cons]
    omega

theorem countP_uses (arrays : List (List Int)) (hne : ∀ offs ∈ arrays, offs ≠ []) (hdec : ∀ offs ∈ arrays, offs.Pairwise (fun a b => b < a))
    (ord : List StencilAccess) (hord : Uses arrays ord) (hnd : ord.Nodup) (P : Int → Bool) :
    ord.countP (fun e => lagging P (arrays.getD e.arr []) e.off) = arrays.length + (arrays.flatMap gaps).countP P := by
  let all : List StencilAccess := (List.range arrays.length).flatMap fun k => (arrays.getD k []).map fun o => ⟨k, o⟩
  have hgd : ∀ k offs, arrays[k]? = some offs → arrays.getD k [] = offs := fun k offs h => by rw [List.getD_eq_getElem?_getD, h]; rfl
  have hperm : ord.Perm all := by
    refine (List.perm_ext_iff_of_nodup hnd ?_).2 ?_
    · refine List.nodup_flatMap.2 ⟨fun k hk => ?_, ?_⟩
      · have hlt : k < arrays.length := by simpa using hk
        rw [hgd k _ (List.getElem?_eq_getElem hlt)]
        refine List.Nodup.map (fun x y h => (StencilAccess.mk.inj h).2) ?_
        exact (hdec _ (List.getElem_mem hlt)).imp fun h => by omega
      · refine (List.nodup_range).imp fun {x y} hxy => ?_
        simp only [Function.onFun]
        intro e h1 h2
        obtain ⟨_, _, rfl⟩ := List.mem_map.1 h1
        obtain ⟨_, _, he⟩ := List.mem_map.1 h2
        exact hxy (congrArg StencilAccess.arr he).symm
    · intro e
      rw [hord e]
      simp only [all, List.mem_flatMap, List.mem_range, List.mem_map]
      constructor
      · rintro ⟨offs, h1, h2⟩
        exact ⟨e.arr, (List.getElem?_eq_some_iff.1 h1).1, e.off, by rw [hgd _ _ h1]; exact h2, rfl⟩
      · rintro ⟨k, hk, o, ho, rfl⟩
        have hget : arrays[k]? = some arrays[k] := List.getElem?_eq_getElem hk
        exact ⟨_, hget, by rw [hgd _ _ hget] at ho; exact ho⟩
  rw [hperm.countP_eq, List.countP_flatMap, ← sum_countP, ← map_range_getD (fun l => (gaps l).countP P + 1)]
  congr 1
  apply List.map_congr_left
  intro k hk
  have hlt : k < arrays.length := by simpa using hk
  simp only [Function.comp, List.countP_map]
  have hg := hgd k _ (List.getElem?_eq_getElem hlt)
  rw [hg, ← countP_lagging P arrays[k] (hne _ (List.getElem_mem hlt)) (hdec _ (List.getElem_mem hlt))]
  apply List.countP_congr
  intro o _
  simp only [Function.comp, hg]

/-! ### The selected option -/

section
variable {K : Type} [LinearOrder K]

theorem tail_select (size : Int) (isStatic : Dist K → Bool) (ds : List (Dist K)) (nInf nDest : Nat) (ts : List (Dist K)) :
    (∀ o, (tailOptions size isStatic ds nInf nDest ts).find? (·.cond) = some o →
      ∃ pre t post, ts = pre ++ t :: post ∧ (∀ p ∈ pre, size < requirement ds nInf p) ∧ requirement ds nInf t ≤ size ∧ o.misses = above ds nInf t) ∧
    ((tailOptions size isStatic ds nInf nDest ts).find? (·.cond) = none → ∀ p ∈ ts, size < requirement ds nInf p) := by
  induction ts with
  | nil => simp [tailOptions]
  | cons t ts ih =>
    by_cases hc : requirement ds nInf t ≤ size
    · have hf : (tailOptions size isStatic ds nInf nDest (t :: ts)).find? (·.cond) = some ⟨true, isStatic t, below ds t, above ds nInf t, nDest⟩ := by
        simp only [tailOptions, hc, decide_true]
        split <;> simp
      rw [hf]
      refine ⟨fun o ho => ?_, fun h => by cases h⟩
      cases ho
      exact ⟨[], t, ts, rfl, by simp, hc, rfl⟩
    · have hf : (tailOptions size isStatic ds nInf nDest (t :: ts)).find? (·.cond) = (tailOptions size isStatic ds nInf nDest ts).find? (·.cond) := by
        simp [tailOptions, hc]
      rw [hf]
      have hlt : size < requirement ds nInf t := not_le.1 hc
      refine ⟨fun o ho => ?_, fun h p hp => ?_⟩
      · obtain ⟨pre, t', post, h1, h2, h3, h4⟩ := ih.1 o ho
        exact ⟨t :: pre, t', post, by rw [h1]; rfl, by simpa [hlt] using h2, h3, h4⟩
      · rcases List.mem_cons.1 hp with rfl | hp
        · exact hlt
        · exact ih.2 h p hp

theorem selected_misses (size sumSizes : Int) (fullStatic : Bool) (isStatic : Dist K → Bool) (ds : List (Dist K)) (nInf nDest : Nat) (tails : List (Dist K))
    (ht : IsTails ds tails) (hmono : ∀ d ∈ ds, ∀ d' ∈ ds, d.key ≤ d'.key → requirement ds nInf d ≤ requirement ds nInf d') (hfull : size ≤ sumSizes)
    (o : Opt) (ho : select (buildOptions size sumSizes fullStatic isStatic ds nInf nDest tails) = some o) :
    o.misses = nInf + ds.countP (fun d => decide (size < requirement ds nInf d)) := by
  have hts := tail_select size isStatic ds nInf nDest tails
  have hcond : decide (size > sumSizes) = false := by simp; omega
  have hsel : (tailOptions size isStatic ds nInf nDest tails).find? (·.cond) = some o ∨
      (tailOptions size isStatic ds nInf nDest tails).find? (·.cond) = none ∧ o.misses = ds.length + nInf := by
    simp only [select, buildOptions] at ho
    rw [hcond] at ho
    split at ho
    · split at ho
      · left
        simpa using ho
      · simp only [List.cons_append, List.find?_cons, List.find?_append] at ho
        cases hf : (tailOptions size isStatic ds nInf nDest tails).find? (·.cond) with
        | some o' =>
          left
          simpa [hf] using ho
        | none =>
          right
          simp only [hf, Option.none_or] at ho
          cases ho
          exact ⟨rfl, rfl⟩
    · left
      simpa using ho
  rcases hsel with h | ⟨h, hm⟩
  · obtain ⟨pre, t, post, h1, h2, h3, h4⟩ := hts.1 o h
    rw [h4, above, ← List.countP_eq_length_filter, add_comm]
    congr 1
    apply List.countP_congr
    intro d hd
    have htm : t ∈ ds := (ht.2.1 t).1 (by rw [h1]; simp)
    simp only [decide_eq_true_eq]
    constructor
    · intro hlt
      have hdt : d ∈ tails := (ht.2.1 d).2 hd
      rw [h1] at hdt
      rcases List.mem_append.1 hdt with hp | hp
      · exact h2 d hp
      · have hs := ht.2.2
        rw [h1, List.pairwise_append, List.pairwise_cons] at hs
        rcases List.mem_cons.1 hp with rfl | hp
        · exact absurd hlt (lt_irrefl _)
        · exact absurd hlt (not_lt.2 (hs.2.1.1 d hp))
    · intro hlt
      by_contra hc
      have := hmono d hd t htm (not_lt.1 hc)
      omega
  · rw [hm, add_comm]
    congr 1
    symm
    rw [List.countP_eq_length]
    intro d hd
    simpa using hts.2 h d ((ht.2.1 d).2 hd)

end

theorem stencil_mono (s : Int) (hs : 0 < s) (arrays : List (List Int)) (hdec : ∀ offs ∈ arrays, offs.Pairwise (fun a b => b ≤ a)) :
    ∀ d ∈ stencilDists s arrays, ∀ d' ∈ stencilDists s arrays, d.key ≤ d'.key →
      requirement (stencilDists s arrays) arrays.length d ≤ requirement (stencilDists s arrays) arrays.length d' := by
  have hnn := flatMap_gaps_nonneg arrays hdec
  intro d hd d' hd' hk
  have hd2 := hd
  have hd2' := hd'
  rw [stencilDists_eq, List.map_map, List.mem_map] at hd2 hd2'
  obtain ⟨g, hg, rfl⟩ := hd2
  obtain ⟨g', hg', rfl⟩ := hd2'
  simp only [Function.comp] at hk ⊢
  have h0 := hnn g hg
  have h0' := hnn g' hg'
  have hle : g ≤ g' := by
    have h1 : 0 ≤ s * g := Int.mul_nonneg hs.le h0
    have h2 : 0 ≤ s * g' := Int.mul_nonneg hs.le h0'
    have h3 : (s * g).natAbs ≤ (s * g').natAbs := hk
    exact le_of_mul_le_mul_left (by omega) hs
  rw [requirement_elements s hs arrays hdec g h0, requirement_elements s hs arrays hdec g' h0']
  refine mul_le_mul_of_nonneg_left (add_le_add (mul_le_mul_of_nonneg_right hle (by positivity)) ?_) hs.le
  apply List.sum_le_sum
  intro x _
  exact min_le_min_left x hle

end Verif.LayerCond
