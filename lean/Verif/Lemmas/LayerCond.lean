import Verif.Model.LayerCond
import Verif.Lemmas.Layout
import Verif.Lemmas.Lru
import Mathlib.Order.Interval.Finset.Basic
import Mathlib.Data.Int.Interval
import Mathlib.Algebra.BigOperators.Group.Finset.Basic
import Mathlib.Algebra.Order.BigOperators.Group.Finset
import Mathlib.Algebra.BigOperators.Ring.Finset
import Mathlib.Tactic.Linarith
import Mathlib.Tactic.Ring

namespace Verif.LayerCond
open Verif.Layout Verif.Spec

variable {K : Type} [LinearOrder K]

/-- Option of a tail. -/
def tailOpt (size : Int) (isStatic : Dist K → Bool) (ds : List (Dist K)) (nInf nDest : Nat)
    (t : Dist K) : Opt :=
  ⟨decide (requirement ds nInf t ≤ size), isStatic t, below ds t, above ds nInf t, nDest⟩

theorem find_tailOptions (size : Int) (isStatic : Dist K → Bool) (ds : List (Dist K))
    (nInf nDest : Nat) (tails : List (Dist K)) :
    (tailOptions size isStatic ds nInf nDest tails).find? (·.cond) =
      (tails.find? (fun t => decide (requirement ds nInf t ≤ size))).map
        (tailOpt size isStatic ds nInf nDest) := by
  induction tails with
  | nil => rfl
  | cons t ts ih =>
    rw [tailOptions]
    by_cases hc : requirement ds nInf t ≤ size
    · split
      · rw [List.find?_cons_of_pos (by simpa using hc), List.find?_cons_of_pos (by simpa using hc)]
        rfl
      · rw [List.find?_cons_of_pos (by simpa using hc), List.find?_cons_of_pos (by simpa using hc)]
        rfl
    · rw [if_neg (by simp [hc]), List.find?_cons_of_neg (by simpa using hc),
        List.find?_cons_of_neg (by simpa using hc), ih]

theorem mem_tailOptions (size : Int) (isStatic : Dist K → Bool) (ds : List (Dist K))
    (nInf nDest : Nat) (tails : List (Dist K)) (o : Opt)
    (h : o ∈ tailOptions size isStatic ds nInf nDest tails) :
    ∃ t ∈ tails, o = tailOpt size isStatic ds nInf nDest t := by
  induction tails with
  | nil => simp [tailOptions] at h
  | cons t ts ih =>
    rw [tailOptions] at h
    split at h
    · simp at h; exact ⟨t, by simp, h⟩
    · rcases List.mem_cons.1 h with h | h
      · exact ⟨t, by simp, h⟩
      · obtain ⟨t', h1, h2⟩ := ih h
        exact ⟨t', by simp [h1], h2⟩

/-- The fully cached option. -/
def fullOpt (size sumSizes : Int) (fullStatic : Bool) (ds : List (Dist K)) (nInf : Nat) : Opt :=
  ⟨decide (size > sumSizes), fullStatic, ds.length + nInf, 0, 0⟩

/-- The fallback option. -/
def fallback (ds : List (Dist K)) (nInf nDest : Nat) : Opt :=
  ⟨true, true, 0, ds.length + nInf, nDest⟩

theorem mem_buildOptions (size sumSizes : Int) (fullStatic : Bool) (isStatic : Dist K → Bool)
    (ds : List (Dist K)) (nInf nDest : Nat) (tails : List (Dist K)) (o : Opt)
    (h : o ∈ buildOptions size sumSizes fullStatic isStatic ds nInf nDest tails) :
    o = fullOpt size sumSizes fullStatic ds nInf ∨
      (∃ t ∈ tails, o = tailOpt size isStatic ds nInf nDest t) ∨ o = fallback ds nInf nDest := by
  unfold buildOptions at h
  simp only at h
  have key : ∀ o, o ∈ (fullOpt size sumSizes fullStatic ds nInf) ::
      tailOptions size isStatic ds nInf nDest tails →
      o = fullOpt size sumSizes fullStatic ds nInf ∨
      (∃ t ∈ tails, o = tailOpt size isStatic ds nInf nDest t) := by
    intro o h
    rcases List.mem_cons.1 h with h | h
    · exact Or.inl h
    · exact Or.inr (mem_tailOptions _ _ _ _ _ _ _ h)
  split at h
  · split at h
    · rcases key o h with h | h
      · exact Or.inl h
      · exact Or.inr (Or.inl h)
    · rcases List.mem_append.1 h with h | h
      · rcases key o h with h | h
        · exact Or.inl h
        · exact Or.inr (Or.inl h)
      · simp at h; exact Or.inr (Or.inr h)
  · rcases key o h with h | h
    · exact Or.inl h
    · exact Or.inr (Or.inl h)

theorem select_buildOptions (size sumSizes : Int) (fullStatic : Bool) (isStatic : Dist K → Bool)
    (ds : List (Dist K)) (nInf nDest : Nat) (tails : List (Dist K)) :
    select (buildOptions size sumSizes fullStatic isStatic ds nInf nDest tails) =
      if size > sumSizes then some (fullOpt size sumSizes fullStatic ds nInf)
      else match tails.find? (fun t => decide (requirement ds nInf t ≤ size)) with
        | some t => some (tailOpt size isStatic ds nInf nDest t)
        | none => some (fallback ds nInf nDest) := by
  have hopts : ((fullOpt size sumSizes fullStatic ds nInf) ::
      tailOptions size isStatic ds nInf nDest tails).find? (·.cond) =
      if size > sumSizes then some (fullOpt size sumSizes fullStatic ds nInf)
      else (tails.find? (fun t => decide (requirement ds nInf t ≤ size))).map
        (tailOpt size isStatic ds nInf nDest) := by
    by_cases hc : size > sumSizes
    · rw [List.find?_cons_of_pos (by simpa [fullOpt] using hc), if_pos hc]
    · rw [List.find?_cons_of_neg (by simpa [fullOpt] using hc), if_neg hc, find_tailOptions]
  have hsel : select (buildOptions size sumSizes fullStatic isStatic ds nInf nDest tails) =
      (((fullOpt size sumSizes fullStatic ds nInf) ::
      tailOptions size isStatic ds nInf nDest tails).find? (·.cond)).or
        (some (fallback ds nInf nDest)) := by
    unfold select buildOptions
    simp only
    split
    · rename_i o ho
      split
      · rename_i hcs
        have hm : o ∈ (fullOpt size sumSizes fullStatic ds nInf) ::
            tailOptions size isStatic ds nInf nDest tails := List.mem_of_getLast? ho
        have hsome : (((fullOpt size sumSizes fullStatic ds nInf) ::
            tailOptions size isStatic ds nInf nDest tails).find? (·.cond)).isSome := by
          rw [List.find?_isSome]
          exact ⟨o, hm, by simp at hcs; exact hcs.1⟩
        rw [Option.or_of_isSome hsome]
        rfl
      · rw [List.find?_append]
        rfl
    · rename_i ho
      simp at ho
  rw [hsel, hopts]
  by_cases hc : size > sumSizes
  · simp [hc]
  · simp only [hc, if_false]
    cases tails.find? (fun t => decide (requirement ds nInf t ≤ size)) <;> simp

theorem above_mono (ds : List (Dist K)) (nInf : Nat) (t t' : Dist K) (h : t.key ≤ t'.key) :
    above ds nInf t' ≤ above ds nInf t := by
  unfold above
  apply Nat.add_le_add_right
  apply List.Sublist.length_le
  apply List.monotone_filter_right
  intro d hd
  simp at hd ⊢
  exact lt_of_le_of_lt h hd

theorem below_add_above (ds : List (Dist K)) (nInf : Nat) (t : Dist K) :
    below ds t + above ds nInf t = ds.length + nInf := by
  unfold below above
  have := List.length_eq_length_filter_add (l := ds) (fun d => decide (d.key ≤ t.key))
  have h2 : ds.filter (fun d => decide (t.key < d.key)) =
      ds.filter (fun d => !decide (d.key ≤ t.key)) := by
    apply List.filter_congr
    intro d _
    by_cases h : d.key ≤ t.key
    · simp [h, not_lt_of_ge h]
    · simp [h, not_le.1 h]
  rw [h2]
  omega

/-! ### gaps -/

theorem length_gaps (l : List Int) : (gaps l).length = l.length - 1 := by
  induction l using gaps.induct with
  | case1 a b l ih => simp [gaps, ih]
  | case2 l h =>
    match l, h with
    | [], _ => rfl
    | [a], _ => rfl
    | a :: b :: l, h => exact absurd rfl (h a b l)

theorem gaps_telescope (l : List Int) (i j : Nat) (hij : i ≤ j) (hj : j < l.length) :
    l[i] - l[j] = (((gaps l).drop i).take (j - i)).sum := by
  induction l using gaps.induct generalizing i j with
  | case2 l h =>
    match l, h, hj with
    | [], _, hj => simp at hj
    | [a], _, hj =>
      have : j = 0 := by simpa using hj
      subst this
      have : i = 0 := by omega
      subst this
      simp [gaps]
    | a :: b :: l, h, _ => exact absurd rfl (h a b l)
  | case1 a b l ih =>
    cases i with
    | succ i =>
      cases j with
      | zero => omega
      | succ j =>
        have := ih i j (by omega) (by simpa using hj)
        simp only [gaps, List.drop_succ_cons, List.getElem_cons_succ]
        rw [this]
        congr 2
        omega
    | zero =>
      cases j with
      | zero => simp
      | succ j =>
        have := ih 0 j (by omega) (by simpa using hj)
        simp only [gaps, List.getElem_cons_zero, List.getElem_cons_succ, List.drop_zero,
          Nat.sub_zero, List.take_succ_cons, List.sum_cons] at this ⊢
        rw [← this]
        ring

theorem gaps_nonneg (l : List Int) (h : l.Pairwise (fun a b => b ≤ a)) : ∀ d ∈ gaps l, 0 ≤ d := by
  induction l using gaps.induct with
  | case1 a b l ih =>
    rw [List.pairwise_cons] at h
    intro d hd
    rw [gaps] at hd
    rcases List.mem_cons.1 hd with rfl | hd
    · have := h.1 b (by simp); omega
    · exact ih h.2 d hd
  | case2 l h' =>
    match l, h' with
    | [], _ => simp [gaps]
    | [a], _ => simp [gaps]
    | a :: b :: l, h => exact absurd rfl (h a b l)

/-! ### window sizes -/

/-- Union of intervals of length `len` with the given starts. -/
def touched (len : Nat) (starts : List Int) : Finset Int :=
  starts.foldr (fun o s => Finset.Ico o (o + len) ∪ s) ∅

theorem mem_touched (len : Nat) (starts : List Int) (x : Int) :
    x ∈ touched len starts ↔ ∃ o ∈ starts, o ≤ x ∧ x < o + len := by
  induction starts with
  | nil => simp [touched]
  | cons o l ih =>
    rw [show touched len (o :: l) = Finset.Ico o (o + len) ∪ touched len l from rfl,
      Finset.mem_union, ih, Finset.mem_Ico]
    simp

theorem card_touched (len : Nat) (starts : List Int)
    (h : starts.Pairwise (fun a b => b ≤ a)) (hne : starts ≠ []) :
    ((touched len starts).card : Int) ≤
      len + ((gaps starts).map (fun d => min d (len : Int))).sum := by
  induction starts using gaps.induct with
  | case2 l h' =>
    match l, h', hne with
    | [], _, hne => exact absurd rfl hne
    | [a], _, _ => simp [touched, gaps]
    | a :: b :: l, h, _ => exact absurd rfl (h a b l)
  | case1 a b l ih =>
    have hab : b ≤ a := (List.pairwise_cons.1 h).1 b (by simp)
    have ih' := ih (List.pairwise_cons.1 h).2 (by simp)
    rw [gaps, List.map_cons, List.sum_cons]
    have hsub : touched len (a :: b :: l) ⊆
        touched len (b :: l) ∪ Finset.Ico (max a (b + len)) (a + len) := by
      intro x hx
      rw [mem_touched] at hx
      rw [Finset.mem_union, mem_touched, Finset.mem_Ico]
      obtain ⟨o, ho, h1, h2⟩ := hx
      rcases List.mem_cons.1 ho with rfl | ho
      · by_cases hc : x < b + len
        · left; exact ⟨b, by simp, by omega, hc⟩
        · right; omega
      · left; exact ⟨o, ho, h1, h2⟩
    have hc := (Finset.card_le_card hsub).trans (Finset.card_union_le _ _)
    rw [Int.card_Ico] at hc
    have : ((a + len - max a (b + len)).toNat : Int) ≤ min (a - b) len := by
      omega
    omega

/-- Shifting starts by amounts that do not decrease along a decreasing list does not enlarge gaps. -/
theorem gaps_shift_sum (len : Int) (f : Int → Int) (offs : List Int)
    (hf : offs.Pairwise (fun a b => f a - f b ≤ a - b)) :
    ((gaps (offs.map f)).map (fun d => min d len)).sum ≤
      ((gaps offs).map (fun d => min d len)).sum := by
  induction offs using gaps.induct with
  | case2 l h' =>
    match l, h' with
    | [], _ => simp [gaps]
    | [a], _ => simp [gaps]
    | a :: b :: l, h => exact absurd rfl (h a b l)
  | case1 a b l ih =>
    have hab := (List.pairwise_cons.1 hf).1 b (by simp)
    have ih' := ih (List.pairwise_cons.1 hf).2
    simp only [List.map_cons, gaps, List.sum_cons] at ih' ⊢
    omega

/-- All elements touched in a window: for array `k` with offsets `offs`, access `o` covers `len` positions
from `st k o` on. -/
def window (arrays : List (List Int)) (st : Nat → Int → Int) (len : Nat) : Finset (Nat × Int) :=
  (Finset.range arrays.length).biUnion fun k =>
    (touched len ((arrays.getD k []).map (st k))).image fun x => (k, x)

theorem mem_window (arrays : List (List Int)) (st : Nat → Int → Int) (len : Nat) (k : Nat)
    (offs : List Int) (o x : Int) (hk : arrays[k]? = some offs) (ho : o ∈ offs)
    (h1 : st k o ≤ x) (h2 : x < st k o + len) : (k, x) ∈ window arrays st len := by
  unfold window
  rw [Finset.mem_biUnion]
  have hlt : k < arrays.length := (List.getElem?_eq_some_iff.1 hk).1
  refine ⟨k, by simpa using hlt, ?_⟩
  rw [Finset.mem_image]
  refine ⟨x, ?_, rfl⟩
  rw [mem_touched]
  refine ⟨st k o, ?_, h1, h2⟩
  rw [List.getD_eq_getElem?_getD, hk]
  exact List.mem_map_of_mem ho

theorem sum_range_getD (f : List Int → Int) (arrays : List (List Int)) :
    ∑ k ∈ Finset.range arrays.length, f (arrays.getD k []) = (arrays.map f).sum := by
  induction arrays with
  | nil => simp
  | cons a l ih =>
    rw [List.length_cons, Finset.sum_range_succ', List.map_cons, List.sum_cons, ← ih]
    simp [add_comm]

theorem card_window (arrays : List (List Int)) (st : Nat → Int → Int) (len : Nat)
    (hne : ∀ offs ∈ arrays, offs ≠ [])
    (hdec : ∀ (k : Nat) (offs : List Int), arrays[k]? = some offs → (offs.map (st k)).Pairwise (fun a b => b ≤ a))
    (hst : ∀ (k : Nat) (offs : List Int), arrays[k]? = some offs →
      offs.Pairwise (fun a b => st k a - st k b ≤ a - b)) :
    ((window arrays st len).card : Int) ≤
      len * arrays.length + ((arrays.flatMap gaps).map (fun d => min d (len : Int))).sum := by
  have h1 : ((window arrays st len).card : Int) ≤
      ∑ k ∈ Finset.range arrays.length,
        ((len : Int) + ((gaps (arrays.getD k [])).map (fun d => min d (len : Int))).sum) := by
    unfold window
    refine le_trans (Int.ofNat_le.2 Finset.card_biUnion_le) ?_
    rw [Nat.cast_sum]
    apply Finset.sum_le_sum
    intro k hk
    have hlt : k < arrays.length := by simpa using hk
    have hget : arrays[k]? = some arrays[k] := List.getElem?_eq_getElem hlt
    have hgd : arrays.getD k [] = arrays[k] := by
      rw [List.getD_eq_getElem?_getD, hget]; rfl
    rw [hgd]
    refine le_trans (Int.ofNat_le.2 Finset.card_image_le) ?_
    have hne' : arrays[k] ≠ [] := hne _ (List.getElem_mem hlt)
    refine le_trans (card_touched len _ (hdec k _ hget) (by simpa using hne')) ?_
    exact Int.add_le_add_left (gaps_shift_sum len (st k) _ (hst k _ hget)) _
  refine le_trans h1 ?_
  rw [sum_range_getD (fun l => (len : Int) + ((gaps l).map (fun d => min d (len : Int))).sum)]
  apply le_of_eq
  clear h1 hne hdec hst
  induction arrays with
  | nil => simp
  | cons a l ih =>
    rw [List.map_cons, List.sum_cons, ih, List.flatMap_cons, List.map_append, List.sum_append,
      List.length_cons]
    push_cast
    ring

/-- The requirement bounds the sum of truncated distances. -/
theorem requirement_bound (ds : List (Dist K)) (nInf : Nat) (t : Dist K) (len slack : Int)
    (hlen : len ≤ t.val + slack) :
    (ds.map (fun d => min d.val len)).sum + len * nInf ≤
      requirement ds nInf t + slack * above ds nInf t := by
  unfold requirement above
  induction ds with
  | nil =>
    simp
    nlinarith [Int.natCast_nonneg nInf]
  | cons d ds ih =>
    by_cases h : d.key ≤ t.key
    · rw [List.filter_cons_of_pos (by simpa using h), List.filter_cons_of_neg (by simpa using h),
        List.map_cons, List.map_cons, List.sum_cons, List.sum_cons]
      have : min d.val len ≤ d.val := min_le_left _ _
      omega
    · rw [List.filter_cons_of_neg (by simpa using h), List.filter_cons_of_pos (by simpa using h),
        List.map_cons, List.sum_cons, List.length_cons]
      have : min d.val len ≤ len := min_le_right _ _
      push_cast at ih ⊢
      nlinarith

/-! ### sweeps -/

theorem sweep_split (ord : Nat → List StencilAccess) (m n : Nat) (h : m ≤ n) :
    sweep ord n = sweep ord m ++
      (List.range' m (n - m)).flatMap (fun i => (ord i).map (elemAt i)) := by
  unfold sweep
  rw [← List.flatMap_append]
  congr 1
  rw [List.range_eq_range', List.range_eq_range']
  have := List.range'_append (s := 0) (m := m) (n := n - m) (step := 1)
  simp only [Nat.zero_add, Nat.one_mul] at this
  rw [this]
  congr 1
  omega

end Verif.LayerCond

namespace Verif.LayerCond
open Verif.Layout Verif.Spec

/-! ### tuple order and positions -/

theorem tupleGe_total (a b : List Int) : tupleGe a b = true ∨ tupleGe b a = true := by
  induction a generalizing b with
  | nil => cases b <;> simp [tupleGe]
  | cons x a ih =>
    cases b with
    | nil => simp [tupleGe]
    | cons y b =>
      rcases lt_trichotomy x y with h | h | h
      · right; simp [tupleGe, h]
      · subst h; simpa [tupleGe] using ih b
      · left; simp [tupleGe, h]

theorem tupleGe_trans (a b c : List Int) (h1 : tupleGe a b = true) (h2 : tupleGe b c = true) :
    tupleGe a c = true := by
  induction a generalizing b c with
  | nil =>
    cases b with
    | nil => exact h2
    | cons y b => simp [tupleGe] at h1
  | cons x a ih =>
    cases c with
    | nil => simp [tupleGe]
    | cons z c =>
      cases b with
      | nil => simp [tupleGe] at h2
      | cons y b =>
        simp only [tupleGe] at h1 h2 ⊢
        split at h1
        · split at h2
          · rw [if_pos (by omega)]
          · split at h2
            · simp at h2
            · rw [if_pos (by omega)]
        · split at h1
          · simp at h1
          · split at h2
            · rw [if_pos (by omega)]
            · split at h2
              · simp at h2
              · rw [if_neg (by omega), if_neg (by omega)]
                exact ih b c h1 h2

/-- Subscripts other than the first differ by less than the extent. -/
def CloseBy : List Int → List Int → List Int → Prop
  | _ :: dims, _ :: a, _ :: b => List.Forall₂ (fun d (p : Int × Int) => |p.1 - p.2| < d) dims (a.zip b)
  | _, _, _ => True

theorem cIndex_diff_lt (dims a b : List Int) (hl : a.length = b.length)
    (h : List.Forall₂ (fun d (p : Int × Int) => |p.1 - p.2| < d) dims (a.zip b)) :
    |cIndex dims a - cIndex dims b| < cElems dims := by
  induction dims generalizing a b with
  | nil => simp [cIndex, cElems]
  | cons d ds ih =>
    cases a with
    | nil => simp at h
    | cons x a =>
      cases b with
      | nil => simp at h
      | cons y b =>
        rw [List.zip_cons_cons, List.forall₂_cons] at h
        have ih' := ih a b (by simpa using hl) h.2
        have h1 := h.1
        simp only at h1
        simp only [cIndex, cElems]
        rw [abs_lt] at ih' h1 ⊢
        constructor <;> nlinarith

theorem cIndex_mono (dims a b : List Int) (hla : a.length = dims.length) (hlb : b.length = dims.length)
    (hc : CloseBy dims a b) (h : tupleGe a b = true) : cIndex dims b ≤ cIndex dims a := by
  induction dims generalizing a b with
  | nil => simp [cIndex]
  | cons d ds ih =>
    cases a with
    | nil => simp at hla
    | cons x a =>
      cases b with
      | nil => simp at hlb
      | cons y b =>
        simp only [CloseBy] at hc
        simp only [cIndex]
        have hd := cIndex_diff_lt ds a b (by simp at hla hlb; omega) hc
        rw [abs_lt] at hd
        simp only [tupleGe] at h
        split at h
        · nlinarith
        · split at h
          · simp at h
          · have hxy : x = y := by omega
            subst hxy
            have : CloseBy ds a b := by
              cases ds with
              | nil => simp [CloseBy]
              | cons d' ds =>
                cases a with
                | nil => simp [CloseBy]
                | cons x' a =>
                  cases b with
                  | nil => simp [CloseBy]
                  | cons y' b =>
                    rw [List.zip_cons_cons, List.forall₂_cons] at hc
                    exact hc.2
            have := ih a b (by simpa using hla) (by simpa using hlb) this h
            omega

end Verif.LayerCond
