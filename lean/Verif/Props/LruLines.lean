import Verif.Lemmas.LruLines
import Verif.Props.LayerCond

/-!
C20 for caches with lines of several elements: what the layer condition counts are misses for each cacheline of iterations.
-/

namespace Verif.LayerCond
open Verif.Layout Verif.Spec

variable {K : Type} [LinearOrder K]

/-- The line of access `b` in iteration `n`, where `A` are the accesses before it in that iteration, is in the cache of `cap` lines. -/
def HitsLine (cap L : Nat) (base : Nat → Int) (ord : Nat → List StencilAccess) (n : Nat) (A : List StencilAccess) (b : StencilAccess) : Prop :=
  lineOf base L (elemAt n b) ∈ lruRun cap ((sweep ord n ++ A.map (elemAt n)).map (lineOf base L))

/-- C20 with lines of `L` elements, arrays anywhere in memory, any order of accesses: with two extra cachelines (less one element) per missing
stream, every access to a line that was accessed at most `t` iterations before hits. Missing: the extra cachelines, see `C20_negation_lines`. -/
theorem C20_lines_any_order_partial (arrays : List (List Int)) (hne : ∀ offs ∈ arrays, offs ≠ [])
    (hdec : ∀ offs ∈ arrays, offs.Pairwise (fun a b => b ≤ a))
    (ds : List (Dist K)) (s : Int) (hs : 0 < s)
    (hds : (ds.map (·.val)).Perm ((arrays.flatMap gaps).map (s * ·)))
    (t : Dist K) (tn : Nat) (htn : t.val = s * tn) (cap L : Nat) (hL : 0 < L)
    (hcap : requirement ds arrays.length t + s * (2 * L - 1) * above ds arrays.length t ≤ s * (L * cap))
    (base : Nat → Int) (ord : Nat → List StencilAccess)
    (hord : ∀ m, ∀ a ∈ ord m, ∃ offs, arrays[a.arr]? = some offs ∧ a.off ∈ offs)
    (n : Nat) (A B : List StencilAccess) (b : StencilAccess) (hn : ord n = A ++ b :: B)
    (hprev : (∃ m, m < n ∧ n ≤ m + tn ∧ ∃ a ∈ ord m, lineOf base L (elemAt m a) = lineOf base L (elemAt n b)) ∨
      ∃ a ∈ A, lineOf base L (elemAt n a) = lineOf base L (elemAt n b)) :
    HitsLine cap L base ord n A b := by
  unfold HitsLine
  rw [sweep_split ord (n - tn) n (by omega), List.append_assoc, List.map_append]
  refine hit_of_window cap _ _ _
    ((window arrays (fun _ o => (n : Int) - tn + o) (tn + 1)).image (lineOf base L)) ?_ ?_ ?_
  · rcases hprev with ⟨m, hm, hmt, a, ha, he⟩ | ⟨a, ha, he⟩
    · rw [← he]
      refine List.mem_map_of_mem (List.mem_append_left _ (List.mem_flatMap.2 ⟨m, ?_, List.mem_map_of_mem ha⟩))
      rw [List.mem_range'_1]; omega
    · rw [← he]
      exact List.mem_map_of_mem (List.mem_append_right _ (List.mem_map_of_mem ha))
  · intro z hz
    obtain ⟨y, hy, rfl⟩ := List.mem_map.1 hz
    refine Finset.mem_image_of_mem _ ?_
    have : ∃ m a, n ≤ m + tn ∧ m ≤ n ∧ a ∈ ord m ∧ y = elemAt m a := by
      rcases List.mem_append.1 hy with hy | hy
      · rw [List.mem_flatMap] at hy
        obtain ⟨m, hm, hy⟩ := hy
        rw [List.mem_range'_1] at hm
        rw [List.mem_map] at hy
        obtain ⟨a, ha, rfl⟩ := hy
        exact ⟨m, a, by omega, by omega, ha, rfl⟩
      · rw [List.mem_map] at hy
        obtain ⟨a, ha, rfl⟩ := hy
        exact ⟨n, a, by omega, le_refl _, by rw [hn]; simp [ha], rfl⟩
    obtain ⟨m, a, h1, h2, ha, rfl⟩ := this
    obtain ⟨offs, hk, ho⟩ := hord m a ha
    refine mem_window arrays _ _ a.arr offs a.off _ hk ho ?_ ?_
    · omega
    · push_cast; omega
  · have hw := card_lines_window arrays (fun _ o => (n : Int) - tn + o) (tn + 1) L (by omega) hL base hne
      (fun k offs hk => by
        rw [List.pairwise_map]
        exact (hdec offs (List.mem_of_getElem? hk)).imp (by intro a b h; omega))
      (fun k offs hk => by
        apply List.Pairwise.imp (R := fun a b => b ≤ a) _ (hdec offs (List.mem_of_getElem? hk))
        intro a b h; omega)
    have hr := requirement_bound ds arrays.length t (s * (((tn + 1 : Nat) : Int) + 2 * (L - 1))) (s * (2 * L - 1)) (by
      rw [htn]; push_cast; apply le_of_eq; ring)
    rw [sum_min_scaled ds arrays s hs.le _ hds] at hr
    have h1 : s * ((L : Int) * (((window arrays (fun _ o => (n : Int) - tn + o) (tn + 1)).image (lineOf base L)).card : Int)) ≤ s * (L * cap) := by
      refine le_trans (mul_le_mul_of_nonneg_left hw hs.le) (le_trans (le_of_eq ?_) (le_trans hr hcap))
      ring
    have h2 := le_of_mul_le_mul_left h1 hs
    have h3 := le_of_mul_le_mul_left h2 (by exact_mod_cast hL : (0 : Int) < L)
    exact_mod_cast h3

/-- C20, misses per cacheline: the predicted number of misses bounds the misses of each `L` consecutive iterations, where `L` elements are in a line,
for arrays anywhere in memory and all orders of accesses, even changing ones, if the cache has room for the requirement and two extra cachelines (less
one element) per missing stream. Missing: the extra cachelines, see `C20_negation_lines`. -/
theorem C20_misses_per_line_partial (arrays : List (List Int)) (hne : ∀ offs ∈ arrays, offs ≠ [])
    (hdec : ∀ offs ∈ arrays, offs.Pairwise (fun a b => b ≤ a))
    (ds : List (Dist K)) (s : Int) (hs : 0 < s)
    (hds : (ds.map (·.val)).Perm ((arrays.flatMap gaps).map (s * ·)))
    (t : Dist K) (tn : Nat) (htn : t.val = s * tn) (hpos : 0 < tn) (hkey : ∀ d ∈ ds, d.key ≤ t.key → d.val ≤ t.val)
    (cap L : Nat) (hL : 0 < L)
    (hcap : requirement ds arrays.length t + s * (2 * L - 1) * above ds arrays.length t ≤ s * (L * cap))
    (base : Nat → Int) (ord : Nat → List StencilAccess) (hord : ∀ m, Uses arrays (ord m)) (n : Nat) (hn : tn ≤ n) :
    misses cap ((sweep ord n).map (lineOf base L)) (((List.range' n L).flatMap fun m => (ord m).map (elemAt m)).map (lineOf base L)) ≤
      above ds arrays.length t := by
  classical
  have hL' : (0 : Int) < L := by exact_mod_cast hL
  refine le_trans (misses_iterations cap ord (lineOf base L)
    (fun m => (leadingAll tn arrays).filter fun a => (base a.arr + ((m : Int) + a.off)) % (L : Int) = 0) n L ?_) ?_
  · intro m h1 h2 A a B hsplit hmiss
    have hit := fun hp => hmiss (C20_lines_any_order_partial arrays hne hdec ds s hs hds t tn htn cap L hL hcap base ord
      (fun m a ha => (hord m a).1 ha) m A B a hsplit hp)
    obtain ⟨offs, hk, ho⟩ := (hord m a).1 (by rw [hsplit]; simp)
    refine ⟨Finset.mem_filter.2 ⟨mem_leadingAll tn arrays a offs hk ⟨ho, ?_⟩, ?_⟩, ?_⟩
    · intro o' ho' hlt
      by_contra hc
      refine hit (.inl ⟨m - (o' - a.off).toNat, by omega, by omega, ⟨a.arr, o'⟩, (hord _ _).2 ⟨offs, hk, ho'⟩, ?_⟩)
      congr 1
      simp only [elemAt, Prod.mk.injEq, true_and]
      omega
    · by_contra hc
      refine hit (.inl ⟨m - 1, by omega, by omega, a, (hord _ _).2 ⟨offs, hk, ho⟩, ?_⟩)
      simp only [lineOf, elemAt]
      have e : base a.arr + (((m - 1 : Nat) : Int) + a.off) = (base a.arr + ((m : Int) + a.off)) - 1 := by omega
      rw [e]
      generalize base a.arr + ((m : Int) + a.off) = z at *
      have m1 := Int.emod_add_mul_ediv z L
      have h3 := Int.emod_nonneg z (ne_of_gt hL')
      have h4 := Int.emod_lt_of_pos z hL'
      rw [show z - 1 = (z % (L : Int) - 1) + L * (z / L) by omega, Int.add_mul_ediv_left _ _ (ne_of_gt hL'),
        Int.ediv_eq_zero_of_lt (by omega) (by omega), Int.zero_add]
    · intro hA
      exact hit (.inr ⟨a, hA, rfl⟩)
  · have hsum : ∑ m ∈ Finset.range L, ((leadingAll tn arrays).filter fun a => (base a.arr + (((n + m : Nat) : Int) + a.off)) % (L : Int) = 0).card ≤
        (leadingAll tn arrays).card := by
      simp only [Finset.card_filter]
      rw [Finset.sum_comm, Finset.card_eq_sum_ones]
      · apply Finset.sum_le_sum
        intro a _
        have := one_start L (base a.arr + ((n : Int) + a.off))
        rw [Finset.card_filter] at this
        refine le_trans (le_of_eq ?_) this
        apply Finset.sum_congr rfl
        intro m _
        push_cast
        rw [show base a.arr + ((n : Int) + m + a.off) = base a.arr + (n + a.off) + m by ring]
    refine le_trans hsum (le_trans (card_leadingAll tn arrays hne hdec) ?_)
    unfold above
    rw [Nat.add_comm]
    refine Nat.add_le_add_right ?_ _
    have h1 : ((arrays.flatMap gaps).filter (fun g => decide ((tn : Int) < g))).length = (((arrays.flatMap gaps).map (s * ·)).filter (fun v => decide (t.val < v))).length := by
      rw [List.filter_map, List.length_map]
      congr 1
      apply List.filter_congr
      intro g _
      simp only [Function.comp, decide_eq_decide, htn]
      exact (mul_lt_mul_iff_right₀ hs).symm
    rw [h1, ← (hds.filter _).length_eq, List.filter_map, List.length_map]
    apply List.Sublist.length_le
    have h2 : ds.filter ((fun v => decide (t.val < v)) ∘ fun d => d.val) = (ds.filter (fun d => decide (t.key < d.key))).filter ((fun v => decide (t.val < v)) ∘ fun d => d.val) := by
      rw [List.filter_filter]
      apply List.filter_congr
      intro d hd
      simp only [Function.comp]
      by_cases h : t.val < d.val
      · have : t.key < d.key := by
          by_contra hc
          exact absurd (hkey d hd (not_lt.1 hc)) (by omega)
        simp [h, this]
      · simp [h]
    rw [h2]
    exact List.filter_sublist

/-- A stencil on three rows of 100 elements, written to another array, in lines of eight elements: four streams miss, and nine cachelines
are enough. -/
def rows : List (List Int) := [[100, 1, 0, -1, -100], [0]]

example : requirement (stencilDists 8 rows) 2 ⟨8, 8, 8⟩ + 8 * (2 * 8 - 1) * above (stencilDists 8 rows) 2 ⟨8, 8, 8⟩ = 8 * 66 ∧
    above (stencilDists 8 rows) 2 ⟨8, 8, 8⟩ = 4 ∧ (8 * 66 : Int) ≤ 8 * (8 * 9) := by decide

/-- The order of the accesses in the source text. -/
def rowsOrder : List StencilAccess := [⟨0, -100⟩, ⟨0, -1⟩, ⟨0, 0⟩, ⟨0, 1⟩, ⟨0, 100⟩, ⟨1, 0⟩]

theorem rowsOrder_uses : Uses rows rowsOrder := by
  intro a
  obtain ⟨k, o⟩ := a
  match k with
  | 0 => simp [rows, rowsOrder]; tauto
  | 1 => simp [rows, rowsOrder]
  | k + 2 => simp [rows, rowsOrder]

/-- In every eight iterations there are at most four misses, wherever the arrays are. -/
example (base : Nat → Int) (n : Nat) (hn : 1 ≤ n) :
    misses 9 ((sweep (fun _ => rowsOrder) n).map (lineOf base 8))
      (((List.range' n 8).flatMap fun m => rowsOrder.map (elemAt m)).map (lineOf base 8)) ≤ 4 :=
  C20_misses_per_line_partial rows (by decide) (by decide) (stencilDists 8 rows) 8 (by decide) (by decide) ⟨8, 8, 8⟩ 1 (by decide) (by decide)
    (by decide) 9 8 (by decide) (by decide) base (fun _ => rowsOrder) (fun _ => rowsOrder_uses) n hn

/-- C20 does not hold for lines of several elements: the requirement are 3 of the 8 elements of a cache of one line, but the two arrays replace each
other, and there are 17 misses in 8 iterations instead of 2, even in ascending order. -/
theorem C20_negation_lines :
    requirement (stencilDists 1 [[1, 0], [0]]) 2 ⟨1, 1, 1⟩ < 1 * (8 * 1) ∧ above (stencilDists 1 [[1, 0], [0]]) 2 ⟨1, 1, 1⟩ = 2 ∧
      (let ord : Nat → List StencilAccess := fun _ => [⟨0, 0⟩, ⟨0, 1⟩, ⟨1, 0⟩]
       (∀ m, Uses [[1, 0], [0]] (ord m)) ∧
       misses 1 ((sweep ord 8).map (lineOf (fun k => 800 * (k : Int)) 8))
         (((List.range' 8 8).flatMap fun m => (ord m).map (elemAt m)).map (lineOf (fun k => 800 * (k : Int)) 8)) = 17) := by
  refine ⟨by decide, by decide, ?_, by decide⟩
  intro m a
  obtain ⟨k, o⟩ := a
  match k with
  | 0 => simp; tauto
  | 1 => simp
  | k + 2 => simp

end Verif.LayerCond
