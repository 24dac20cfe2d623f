import Verif.Lemmas.Required
import Mathlib.Tactic.Tauto

/-!
C121: constants that have to be defined.
-/

namespace Verif.Required

open Verif.Symbols

/-- Sizes of arrays. -/
def Size (k : Kernel) (e : Expr) : Prop := ∃ v dims, (v, some dims) ∈ k.variables ∧ e ∈ dims

/-- Bounds of loops. -/
def Bound (k : Kernel) (e : Expr) : Prop := ∃ l ∈ k.loops, e = l.start ∨ e = l.stop

/-- Subscripts. -/
def Subscript (k : Kernel) (e : Expr) : Prop := ∃ v as subs, ((v, as) ∈ k.sources ∨ (v, as) ∈ k.destinations) ∧ some subs ∈ as ∧ e ∈ subs

/-- Loop indices. -/
def Index (k : Kernel) (s : String) : Prop := ∃ l ∈ k.loops, l.index = s

theorem mem_lists (k : Kernel) (e : Expr) : e ∈ (lists k).flatten ↔ Size k e ∨ Bound k e ∨ Subscript k e := by
  simp only [lists, List.flatten_append, List.mem_append, List.mem_flatten, List.mem_filterMap, List.mem_map, List.mem_flatMap, id]
  constructor
  · rintro (((⟨d, ⟨⟨v, o⟩, hv, rfl⟩, he⟩ | ⟨d, ⟨l, hl, rfl⟩, he⟩) | ⟨d, ⟨⟨v, as⟩, hv, o, ho, rfl⟩, he⟩) | ⟨d, ⟨⟨v, as⟩, hv, o, ho, rfl⟩, he⟩)
    · exact Or.inl ⟨v, d, hv, he⟩
    · exact Or.inr (Or.inl ⟨l, hl, by simpa using he⟩)
    · exact Or.inr (Or.inr ⟨v, as, d, Or.inl hv, ho, he⟩)
    · exact Or.inr (Or.inr ⟨v, as, d, Or.inr hv, ho, he⟩)
  · rintro (⟨v, d, hv, he⟩ | ⟨l, hl, he⟩ | ⟨v, as, d, hv | hv, ho, he⟩)
    · exact Or.inl (Or.inl (Or.inl ⟨d, ⟨_, hv, rfl⟩, he⟩))
    · exact Or.inl (Or.inl (Or.inr ⟨_, ⟨l, hl, rfl⟩, by simpa using he⟩))
    · exact Or.inl (Or.inr ⟨d, ⟨_, hv, _, ho, rfl⟩, he⟩)
    · exact Or.inr ⟨d, ⟨_, hv, _, ho, rfl⟩, he⟩

theorem mem_required (k : Kernel) (s : String) :
    s ∈ required k ↔ ¬ Index k s ∧ ∃ e, (Size k e ∨ Bound k e ∨ Subscript k e) ∧ Needs e s := by
  simp only [required, List.mem_filter, List.mem_flatMap, mem_lists, needs_iff, Index]
  constructor
  · rintro ⟨h1, h2⟩
    refine ⟨?_, h1⟩
    rintro ⟨l, hl, rfl⟩
    have : (k.loops.map (·.index)).contains l.index = true := by
      rw [List.contains_iff_mem]; exact List.mem_map_of_mem hl
    rw [this] at h2
    simp at h2
  · rintro ⟨h1, h2⟩
    refine ⟨h2, ?_⟩
    simp only [Bool.not_eq_true', Bool.eq_false_iff, ne_eq, List.contains_iff_mem, List.mem_map]
    exact h1

/-- C121: exactly those symbols are required, besides loop indices, without which an array size, a loop bound or a subscript has no value. -/
theorem C121_needed (k : Kernel) (s : String) :
    s ∈ required k ↔ ¬ Index k s ∧ ∃ e, (Size k e ∨ Bound k e ∨ Subscript k e) ∧ Needs e s := mem_required k s

/-- C121, partial: with values of the required constants all sizes and bounds are numbers, and so are all subscripts for values of the loop indices, and all
increments. Missing: loop indices in sizes and bounds (`C121_negation_triangular`) and symbols in increments (`C121_negation_increment`). -/
theorem C121_numbers_partial (k : Kernel) (constants indices : String → Option Int) (hc : ∀ s ∈ required k, (constants s).isSome)
    (hi : ∀ s, Index k s → (indices s).isSome) (hrect : ∀ e, Size k e ∨ Bound k e → ∀ s, Index k s → ¬ Needs e s)
    (hincr : ∀ l ∈ k.loops, ∃ n, l.incr = .num n) :
    (∀ e, Size k e ∨ Bound k e → (e.value constants).isSome) ∧
    (∀ e, Subscript k e → (e.value fun s => if (indices s).isSome then indices s else constants s).isSome) ∧
    ∀ l ∈ k.loops, (l.incr.value constants).isSome := by
  refine ⟨fun e he => ?_, fun e he => ?_, fun l hl => ?_⟩
  · rw [value_isSome]
    intro s hs
    have hn := (needs_iff e s).2 hs
    apply hc
    rw [mem_required]
    exact ⟨fun h => hrect e he s h hn, e, by tauto, hn⟩
  · rw [value_isSome]
    intro s hs
    have hn := (needs_iff e s).2 hs
    by_cases h : Index k s
    · have := hi s h
      simp [this]
    · have := hc s ((mem_required k s).2 ⟨h, e, Or.inr (Or.inr he), hn⟩)
      split
      · assumption
      · exact this
  · obtain ⟨n, hn⟩ := hincr l hl
    simp [hn, Expr.value]

/-- C121: exactly when values of the required constants are enough. For sizes and bounds, if none of them needs a loop index; for increments, if
they need required constants only. -/
theorem C121_numbers_iff (k : Kernel) :
    ((∀ constants : String → Option Int, (∀ s ∈ required k, (constants s).isSome) → ∀ e, Size k e ∨ Bound k e → (e.value constants).isSome) ↔
      ∀ e, Size k e ∨ Bound k e → ∀ s, Index k s → ¬ Needs e s) ∧
    ((∀ constants : String → Option Int, (∀ s ∈ required k, (constants s).isSome) → ∀ l ∈ k.loops, (l.incr.value constants).isSome) ↔
      ∀ l ∈ k.loops, ∀ s, Needs l.incr s → s ∈ required k) := by
  have key : ∀ e s, (∀ constants : String → Option Int, (∀ s ∈ required k, (constants s).isSome) → (e.value constants).isSome) →
      Needs e s → s ∈ required k := by
    intro e s h hn
    have h1 := h (fun t => if t ∈ required k then some 0 else none) (by intro t ht; simp [ht])
    rw [value_isSome] at h1
    have h2 := h1 s ((needs_iff e s).1 hn)
    by_contra hs
    simp [hs] at h2
  refine ⟨⟨fun h e he s hi hn => ?_, fun h constants hc e he => ?_⟩, ⟨fun h l hl s hn => ?_, fun h constants hc l hl => ?_⟩⟩
  · exact ((mem_required k s).1 (key e s (fun c hc => h c hc e he) hn)).1 hi
  · rw [value_isSome]
    intro s hs
    have hn := (needs_iff e s).2 hs
    exact hc s ((mem_required k s).2 ⟨fun hi => h e he s hi hn, e, by tauto, hn⟩)
  · exact key l.incr s (fun c hc => h c hc l hl) hn
  · rw [value_isSome]
    intro s hs
    exact hc s (h l hl s ((needs_iff _ s).2 hs))

/-- `double a[M][N], b[M][N]; for j = 1 … M-1, for i = 1 … N-1: b[j][i] = a[j-1][i] + s;` -/
def stencil : Kernel where
  variables := [("a", some [.sym "M", .sym "N"]), ("b", some [.sym "M", .sym "N"]), ("s", none)]
  loops := [⟨"j", .num 1, .add (.sym "M") (.num (-1)), .num 1⟩, ⟨"i", .num 1, .add (.sym "N") (.num (-1)), .num 1⟩]
  sources := [("a", [some [.add (.sym "j") (.num (-1)), .sym "i"]]), ("s", [none])]
  destinations := [("b", [some [.sym "j", .sym "i"]])]

example : required stencil = ["M", "N", "M", "N", "M", "N"] := by decide

example (s : String) (h : Index stencil s) (e : Expr) (he : Size stencil e ∨ Bound stencil e) : ¬ Needs e s := by
  rw [needs_iff]
  have hs : s = "j" ∨ s = "i" := by
    obtain ⟨l, hl, rfl⟩ := h
    simp [stencil] at hl
    rcases hl with rfl | rfl <;> simp
  have hf : ∀ t ∈ free e, t = "M" ∨ t = "N" := by
    rcases he with ⟨v, dims, hv, he⟩ | ⟨l, hl, he⟩
    · simp [stencil] at hv
      rcases hv with ⟨rfl, rfl⟩ | ⟨rfl, rfl⟩ <;> (simp at he; rcases he with rfl | rfl <;> simp [free])
    · simp [stencil] at hl
      rcases hl with rfl | rfl <;> rcases he with rfl | rfl <;> simp [free]
  intro hm
  have := hf s hm
  rcases hs with rfl | rfl <;> simp at this

example : ∀ l ∈ stencil.loops, ∃ n, l.incr = .num n := by simp [stencil]

/-- C121 does not hold: a symbol in the increment of a loop, which kernel descriptions may have, is not required, but without it the increment is no
number. -/
theorem C121_negation_increment : ∃ k : Kernel, ∃ l ∈ k.loops, ∃ s, Needs l.incr s ∧ ¬ Index k s ∧ s ∉ required k := by
  refine ⟨⟨[], [⟨"i", .num 0, .sym "N", .sym "B"⟩], [], []⟩, ⟨"i", .num 0, .sym "N", .sym "B"⟩, by simp, "B", fun σ h => h, ?_, by decide⟩
  rintro ⟨l, hl, h⟩
  simp at hl
  subst hl
  exact absurd h (by decide)

/-- C121 does not hold: in a triangular loop nest the bound of the inner loop stays without a value, even if all required constants have one. -/
theorem C121_negation_triangular : ∃ (k : Kernel) (e : Expr) (constants : String → Option Int), Bound k e ∧ (∀ s ∈ required k, (constants s).isSome) ∧
    e.value constants = none := by
  refine ⟨⟨[], [⟨"j", .num 0, .sym "N", .num 1⟩, ⟨"i", .num 0, .sym "j", .num 1⟩], [], []⟩, .sym "j", fun s => if s = "j" then none else some 100,
    ⟨_, List.mem_cons_of_mem _ (List.mem_singleton.2 rfl), Or.inr rfl⟩, ?_, by decide⟩
  decide

end Verif.Required
