import Verif.Lemmas.Applicable
import Mathlib.Tactic.Linarith

/-!
C86: kernels to which layer conditions are applied.
-/

namespace Verif.Applicable

open Verif.Split Verif.Spec

/-- Position of the element in C, for given values of the symbols. -/
def Ref.position (r : Ref) (σ : String → Int) : Int := cIndex (r.dims.map (termValue σ)) (r.subs.map (sumValue σ))

/-- C86, partial: if layer conditions are applied, the position of every reference stays or advances by one element in each
step of the inner loop. Missing: subscripts with powers of the inner counter (`C86_negation_power`). -/
theorem C86_advances_partial (loops : List Loop) (refs : List Ref) (h : applicable loops refs = .ok ()) (l : Loop)
    (hl : loops.getLast? = some l) (hnd : (loops.map (·.index)).Nodup) (r : Ref) (hr : r ∈ refs)
    (hlen : r.subs.length = r.dims.length) (hd : ∀ d ∈ r.dims, l.index ∉ d.2)
    (hlin : ∀ p ∈ r.subs, ∀ t ∈ p, t.2.count l.index ≤ 1) (σ : String → Int) (v : Int) :
    r.position (upd σ l.index (v + 1)) = r.position (upd σ l.index v) ∨
    r.position (upd σ l.index (v + 1)) = r.position (upd σ l.index v) + 1 := by
  have hchk : ∀ t ∈ expand (factors r.dims) r.subs, checkTerm loops t = true := by
    unfold applicable at h
    split at h
    · cases h
    · split at h
      · cases h
      · rename_i h2
        intro t ht
        by_contra hn
        apply h2
        rw [List.any_eq_true]
        refine ⟨r, hr, ?_⟩
        rw [List.any_eq_true]
        exact ⟨t, ht, by simpa using hn⟩
  have hcount := count_expand r l.index hd hlin
  have hstep := sumValue_step σ l.index v (expand (factors r.dims) r.subs) (distinct_expand _ _)
    fun t ht hm => checkTerm_inner loops l hl hnd t (hchk t ht) hm (hcount t ht)
  have hp : ∀ w, r.position (upd σ l.index w) = sumValue (upd σ l.index w) (expand (factors r.dims) r.subs) :=
    fun w => position_expand _ r hlen
  rw [hp, hp]
  split at hstep
  · right; omega
  · left; omega

/-- C86: if layer conditions are applied, all loops advance by one. -/
theorem C86_increments (loops : List Loop) (refs : List Ref) (h : applicable loops refs = .ok ()) :
    ∀ l ∈ loops, l.increment = 1 := by
  intro l hl
  by_contra hn
  unfold applicable at h
  rw [if_pos] at h
  · cases h
  · rw [List.any_eq_true]
    exact ⟨l, hl, by simpa using hn⟩

/-- C86: if layer conditions are applied, every single subscript that is linear in the inner counter stays or advances by
one in each step of the inner loop. -/
theorem C86_subscripts_partial (loops : List Loop) (refs : List Ref) (h : applicable loops refs = .ok ()) (l : Loop)
    (hl : loops.getLast? = some l) (r : Ref) (hr : r ∈ refs) (p : Poly) (hp : p ∈ r.subs)
    (hlin : ∀ t ∈ p, t.2.count l.index ≤ 1) (σ : String → Int) (v : Int) :
    sumValue (upd σ l.index (v + 1)) p = sumValue (upd σ l.index v) p ∨
    sumValue (upd σ l.index (v + 1)) p = sumValue (upd σ l.index v) p + 1 := by
  have hinc : l.increment = 1 := C86_increments loops refs h l (List.mem_of_getLast? hl)
  have hdiff : difference l.index 1 p = [] ∨ difference l.index 1 p = [one] := by
    unfold applicable at h
    split at h
    · cases h
    · split at h
      · cases h
      · rw [hl] at h
        simp only at h
        split at h
        · cases h
        · rename_i h3
          by_contra hn
          push Not at hn
          apply h3
          rw [List.any_eq_true]
          refine ⟨r, hr, ?_⟩
          rw [List.any_eq_true]
          exact ⟨p, hp, by simp [hinc, hn.1, hn.2]⟩
  have hs := sumValue_difference σ l.index 1 p
  have hv := sumValue_linear σ l.index v 1 p hlin
  rw [show (1 : Int) + 1 = 2 by norm_num] at hs hv
  rcases hdiff with e | e <;> rw [e] at hs <;> simp [sumValue, termValue, one] at hs hv ⊢ <;> omega

/-- `a[i][i-N*i]` is rejected although its position is `i`: the second subscript advances by `1-N`. -/
example : applicable [⟨"i", 1⟩] [⟨[symbol "M", symbol "N"], [[(1, {"i"})], [(1, {"i"}), (-1, {"N", "i"})]]⟩] =
    .error "ValueError" := by decide +kernel

/-- A reference in a stencil kernel: extents are symbols that are no counters, subscripts are literals or counters plus
literals, and the counters are those of the innermost loops in their order. -/
structure Stencil (loops : List Loop) (names : List String) (ls : List (Option String × Int)) : Prop where
  length : ls.length = names.length
  extents : ∀ n ∈ names, n ∉ loops.map (·.index)
  order : ∀ d x, ls[d]? = some x → ∀ c, x.1 = some c → (loops.reverse[names.length - 1 - d]?).map (·.index) = some c

/-- C86, partial: layer conditions are applied to all stencil kernels with symbolic extents. Missing: literal extents
(`C86_negation_literals`) and arrays without the inner counter (`C86_negation_outer`). -/
theorem C86_stencils_partial (loops : List Loop) (h1 : ∀ l ∈ loops, l.increment = 1) (hne : loops ≠ [])
    (rs : List (List String × List (Option String × Int))) (hs : ∀ x ∈ rs, Stencil loops x.1 x.2) :
    applicable loops (rs.map fun x => ⟨x.1.map symbol, x.2.map fun y => counterPlus y.1 y.2⟩) = .ok () := by
  unfold applicable
  rw [if_neg, if_neg]
  · cases hl : loops.getLast? with
    | none => exact absurd (List.getLast?_eq_none_iff.1 hl) hne
    | some l =>
      have hinc := h1 l (List.mem_of_getLast? hl)
      simp only
      rw [if_neg]
      rw [List.any_eq_true]
      rintro ⟨r, hr, h⟩
      rw [List.mem_map] at hr
      obtain ⟨x, _, rfl⟩ := hr
      rw [List.any_eq_true] at h
      obtain ⟨p, hp, h⟩ := h
      simp only [List.mem_map] at hp
      obtain ⟨y, _, rfl⟩ := hp
      rw [hinc] at h
      rcases difference_counterPlus l.index y with e | e <;> simp [e] at h
  · rw [List.any_eq_true]
    rintro ⟨r, hr, h⟩
    rw [List.mem_map] at hr
    obtain ⟨x, hx, rfl⟩ := hr
    have hst := hs x hx
    have hcn : ∀ y ∈ x.2, ∀ c, y.1 = some c → c ∉ x.1 := by
      intro y hy c hc hm
      obtain ⟨d, hd⟩ := List.mem_iff_getElem?.1 hy
      have := hst.order d y hd c hc
      rw [Option.map_eq_some_iff] at this
      obtain ⟨l, hl, rfl⟩ := this
      exact hst.extents _ hm (List.mem_map_of_mem (List.mem_reverse.1 (List.mem_of_getElem? hl)))
    rw [List.any_eq_true] at h
    obtain ⟨t, ht, h⟩ := h
    simp only [factors_symbols, expand_symbols x.1 x.2 hcn] at ht
    have := checkTerm_all loops x.1 hst.extents x.2 hst.length hst.order t ht
    simp [this] at h
  · rw [List.any_eq_true]
    rintro ⟨l, hl, h⟩
    simp [h1 l hl] at h

/-- The loops of the examples. -/
def loops3 : List Loop := [⟨"k", 1⟩, ⟨"j", 1⟩, ⟨"i", 1⟩]

/-- `a[k-1][j][i+1]` in a kernel with three loops. -/
example : Stencil loops3 ["L", "M", "N"] [(some "k", -1), (some "j", 0), (some "i", 1)] := by
  refine ⟨rfl, by decide, fun d x hx c hc => ?_⟩
  match d with
  | 0 => simp at hx; subst hx; simpa [loops3] using hc
  | 1 => simp at hx; subst hx; simpa [loops3] using hc
  | 2 => simp at hx; subst hx; simpa [loops3] using hc
  | n + 3 => simp at hx
example : applicable loops3 [⟨[symbol "L", symbol "M", symbol "N"],
    [counterPlus (some "k") (-1), counterPlus (some "j") 0, counterPlus (some "i") 1]⟩] = .ok () := by decide +kernel

/-- C86, negation: `a[i][i*i-3*i]` in an array with rows of 3 elements is accepted; its position is i². -/
theorem C86_negation_power :
    ∃ loops refs, applicable loops refs = .ok () ∧ ∃ r ∈ refs, ∃ l, loops.getLast? = some l ∧
      ∀ σ, ∀ v ≥ 1, r.position (upd σ l.index v) + 1 < r.position (upd σ l.index (v + 1)) := by
  refine ⟨[⟨"i", 1⟩], [⟨[(100, 0), (3, 0)], [[(1, {"i"})], [(1, {"i", "i"}), (-3, {"i"})]]⟩], by decide +kernel, _,
    List.mem_singleton.2 rfl, ⟨"i", 1⟩, rfl, fun σ v hv => ?_⟩
  simp only [Ref.position, termValue, sumValue, upd, List.map_cons, List.map_nil, cIndex, cElems, List.sum_cons, List.sum_nil,
    Multiset.map_singleton, Multiset.prod_singleton, Multiset.insert_eq_cons, Multiset.map_cons, Multiset.prod_cons, if_true,
    Multiset.map_zero, Multiset.prod_zero]
  nlinarith

/-- C86, negation: with literal extents `a[k][j][i]` is rejected, because the number 600 counts as one factor. -/
theorem C86_negation_literals : applicable loops3 [⟨[(10, 0), (20, 0), (30, 0)],
    [counterPlus (some "k") 0, counterPlus (some "j") 0, counterPlus (some "i") 0]⟩] = .error "ValueError" := by decide +kernel

/-- C86, negation: arrays without the inner counter are not ignored, `y[j]` in the loops over j and i is rejected. -/
theorem C86_negation_outer : applicable [⟨"j", 1⟩, ⟨"i", 1⟩] [⟨[symbol "M"], [counterPlus (some "j") 0]⟩] =
    .error "ValueError" := by decide +kernel

end Verif.Applicable
