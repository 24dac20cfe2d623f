import Verif.Lemmas.Names
import Mathlib.Logic.Equiv.Basic

/-!
Property C139: predictions do not depend on the names of arrays. Model: `Verif.Names`, `Verif.Predict`, `Verif.Layout`;
specification: `Spec/Names.lean`, `Spec/Lru.lean`.
-/

namespace Verif.Names

open Verif.Layout Verif.LayerCond Verif.Spec Verif.Predict

variable {K : Type} [LinearOrder K]

/-- C139: the layer conditions find the same loads and stores on every level if arrays get other names, are declared in
another order, and their references are met in another order. -/
theorem C139_layer (ρ : String → String) (hρ : Function.Injective ρ) (mk : Int → Dist K) (el : Int)
    (arrays arrays' : List ArrRefs) (h : SameKernel ρ arrays arrays') (cs cs' : List (Cache K))
    (hc : SameCaches (work mk el arrays) cs cs') :
    ∃ os os', traffic (work mk el arrays) cs = some os ∧ traffic (work mk el arrays') cs' = some os' ∧
      getLoads os = getLoads os' ∧ getStores os = getStores os' :=
  traffic_same _ _ (work_same mk el ρ hρ arrays arrays' h) cs cs' hc

/-- C139: the prediction of the ECM model is the same, and so is whether there is one. -/
theorem C139_ecm (ρ : String → String) (hρ : Function.Injective ρ) (mk : Int → Dist K) (el : Nat)
    (arrays arrays' : List ArrRefs) (h : SameKernel ρ arrays arrays') (cs cs' : List (Cache K))
    (hc : SameCaches (work mk el arrays) cs cs') (m : Mach) (tComp tRegL1 : ℚ) :
    ecm m el tComp tRegL1 (work mk el arrays) cs = ecm m el tComp tRegL1 (work mk el arrays') cs' := by
  obtain ⟨os, os', h1, h2, h3, h4⟩ := C139_layer ρ hρ mk el arrays arrays' h cs cs' hc
  unfold ecm
  rw [h1, h2]
  cases m.levels with
  | nil => rfl
  | cons l0 ls => simp only [h3, h4]

/-- C139: the prediction of the Roofline model is the same. -/
theorem C139_roofline (ρ : String → String) (hρ : Function.Injective ρ) (mk : Int → Dist K) (el : Nat)
    (arrays arrays' : List ArrRefs) (h : SameKernel ρ arrays arrays') (cs cs' : List (Cache K))
    (hc : SameCaches (work mk el arrays) cs cs') (m : Mach) (cores reads writes : Nat) :
    roofline m el cores reads writes (work mk el arrays) cs = roofline m el cores reads writes (work mk el arrays') cs' := by
  obtain ⟨os, os', h1, h2, h3, h4⟩ := C139_layer ρ hρ mk el arrays arrays' h cs cs' hc
  unfold roofline
  rw [h1, h2]
  simp only [h3, h4]

/-- C139: under other names, a fully associative cache with LRU replacement has the same number of misses in all
iterations after any number of them, and the kernel still compiles. `cl` is a power of two and subscripts are in range.
Missing: caches with sets (`C139_negation_sets`). -/
theorem C139_simulation_partial (ρ : String → String) (hρ : Function.Injective ρ) (vars : List Arr) (hu : UniqueNames vars)
    (hsz : ∀ v ∈ vars, 0 < v.elem ∧ ∀ d ∈ v.dims, 0 ≤ d) (counters : List String) (loops : List Iteration.Loop)
    (consts : String → Option Int) (sources dests : List Access) (spacing : Int) (hs : 0 ≤ spacing) (k : Nat) (iters : List Int)
    (hr : ∀ it ∈ iters, ∀ idx, Iteration.globalIteratorToIndices loops it = some idx → ∀ a ∈ sources ++ dests,
      AccessInRange vars (mkEnv counters idx consts) a)
    (res : List (List Int × List Int))
    (h : compileGlobalOffsets vars counters loops consts sources dests spacing (2 ^ k : Nat) iters = .ok res) :
    ∃ res', compileGlobalOffsets (vars.map (renameArr ρ)) counters loops consts (sources.map (renameAccess ρ))
        (dests.map (renameAccess ρ)) spacing (2 ^ k : Nat) iters = .ok res' ∧
      ∀ cap n, misses cap (lines (2 ^ k : Nat) (res'.take n)) (lines (2 ^ k : Nat) (res'.drop n)) =
        misses cap (lines (2 ^ k : Nat) (res.take n)) (lines (2 ^ k : Nat) (res.drop n)) := by
  obtain ⟨res', h', hf⟩ := compile_same ρ hρ vars hu hsz counters loops consts sources dests spacing _ iters hr res h
  refine ⟨res', h', fun cap n => ?_⟩
  have hpos : (0 : Int) < (2 ^ k : Nat) := by positivity
  have hp := placed_base id Function.injective_id vars hu hsz spacing hs k _ (dvd_refl _)
  rw [rename_id] at hp
  have hp' := placed_base ρ hρ vars hu hsz spacing hs k _ (dvd_refl _)
  have hS := sameByte_lines _ hpos ρ vars hu _ _ hp hp'
  exact misses_same _ _ hS hf cap n

/-- C139: the numbers of distinct elements read and written, which the Roofline model uses for the registers, are the
same under other names. -/
theorem C139_elements (ρ : String → String) (hρ : Function.Injective ρ) (vars : List Arr) (hu : UniqueNames vars)
    (hsz : ∀ v ∈ vars, 0 < v.elem ∧ ∀ d ∈ v.dims, 0 ≤ d) (counters : List String) (loops : List Iteration.Loop)
    (consts : String → Option Int) (sources dests : List Access) (spacing : Int) (hs : 0 ≤ spacing) (k : Nat) (iters : List Int)
    (hr : ∀ it ∈ iters, ∀ idx, Iteration.globalIteratorToIndices loops it = some idx → ∀ a ∈ sources ++ dests,
      AccessInRange vars (mkEnv counters idx consts) a)
    (res res' : List (List Int × List Int))
    (h : compileGlobalOffsets vars counters loops consts sources dests spacing (2 ^ k : Nat) iters = .ok res)
    (h' : compileGlobalOffsets (vars.map (renameArr ρ)) counters loops consts (sources.map (renameAccess ρ))
        (dests.map (renameAccess ρ)) spacing (2 ^ k : Nat) iters = .ok res') :
    (res'.flatMap (·.1)).dedup.length = (res.flatMap (·.1)).dedup.length ∧
    (res'.flatMap (·.2)).dedup.length = (res.flatMap (·.2)).dedup.length := by
  obtain ⟨res'', h'', hf⟩ := compile_same ρ hρ vars hu hsz counters loops consts sources dests spacing _ iters hr res h
  rw [h'] at h''
  cases h''
  have hp := placed_base id Function.injective_id vars hu hsz spacing hs k 1 (one_dvd _)
  rw [rename_id] at hp
  have hp' := placed_base ρ hρ vars hu hsz spacing hs k 1 (one_dvd _)
  have hS := sameByte_lines _ one_pos ρ vars hu _ _ hp hp'
  exact elements_same _ hS hf

/-! ### Witnesses -/

/-- Names of the two arrays are exchanged. -/
def swapped : String → String := Equiv.swap "a" "b"

/-- `double a[8], b[16]; for (i = 0; i < 8; ++i) b[i] = a[i]` -/
def wVars : List Arr := [⟨"a", 8, [8]⟩, ⟨"b", 8, [16]⟩]
def wLoops : List Iteration.Loop := [⟨0, 8, 1⟩]
def wSrc : List Access := [⟨"a", [.var "i"]⟩]
def wDst : List Access := [⟨"b", [.var "i"]⟩]
def wIters : List Int := [0, 1, 2, 3, 4, 5, 6, 7]

theorem w_res : compileGlobalOffsets wVars ["i"] wLoops (fun _ => none) wSrc wDst 0 (2 ^ 6 : Nat) wIters =
    .ok [([0], [64]), ([8], [72]), ([16], [80]), ([24], [88]), ([32], [96]), ([40], [104]), ([48], [112]), ([56], [120])] := by
  decide +kernel

theorem w_res' : compileGlobalOffsets (wVars.map (renameArr swapped)) ["i"] wLoops (fun _ => none)
    (wSrc.map (renameAccess swapped)) (wDst.map (renameAccess swapped)) 0 (2 ^ 6 : Nat) wIters =
    .ok [([128], [0]), ([136], [8]), ([144], [16]), ([152], [24]), ([160], [32]), ([168], [40]), ([176], [48]), ([184], [56])] := by
  decide +kernel

/-- C139 fails for caches with sets: arrays are arranged in the order of their names (`kernel.py:573-587`). In a cache
with two sets of one line each, a copy has 2 misses; after the two arrays have exchanged their names it has 16. -/
theorem C139_negation_sets : ∃ (res res' : List (List Int × List Int)),
    compileGlobalOffsets wVars ["i"] wLoops (fun _ => none) wSrc wDst 0 (2 ^ 6 : Nat) wIters = .ok res ∧
    compileGlobalOffsets (wVars.map (renameArr swapped)) ["i"] wLoops (fun _ => none)
      (wSrc.map (renameAccess swapped)) (wDst.map (renameAccess swapped)) 0 (2 ^ 6 : Nat) wIters = .ok res' ∧
    setMisses 2 1 (lines 64 res) = 2 ∧ setMisses 2 1 (lines 64 res') = 16 :=
  ⟨_, _, w_res, w_res', by decide +kernel, by decide +kernel⟩

example : Function.Injective swapped := (Equiv.swap "a" "b").injective
example : UniqueNames wVars := by unfold UniqueNames; decide
example : ∀ v ∈ wVars, 0 < v.elem ∧ ∀ d ∈ v.dims, 0 ≤ d := by decide
/-- Subscripts of the example are in range. -/
example : ∀ it ∈ wIters, ∀ idx, Iteration.globalIteratorToIndices wLoops it = some idx → ∀ a ∈ wSrc ++ wDst,
    AccessInRange wVars (mkEnv ["i"] idx (fun _ => none)) a := by
  intro it hit idx hidx a ha v hv hn vals hvals
  have hb : idx = [it] := by
    revert hidx
    simp only [wIters, List.mem_cons, List.not_mem_nil, or_false] at hit
    rcases hit with rfl | rfl | rfl | rfl | rfl | rfl | rfl | rfl <;> intro hidx <;>
      exact (Option.some_inj.1 (hidx.symm.trans (by decide +kernel)))
  subst hb
  have h8 : 0 ≤ it ∧ it < 8 := by
    simp only [wIters, List.mem_cons, List.not_mem_nil, or_false] at hit
    omega
  simp only [wSrc, wDst, List.cons_append, List.nil_append, List.mem_cons, List.not_mem_nil, or_false] at ha
  simp only [wVars, List.mem_cons, List.not_mem_nil, or_false] at hv
  rcases ha with rfl | rfl <;> rcases hv with rfl | rfl <;> simp at hn
  all_goals
    cases hvals with
    | cons h1 h2 =>
      cases h2
      simp [Ev, Sym.eval, mkEnv] at h1
      subst h1
      simp [InRange]
      omega

/-- A 2D stencil `a` and its result `b`, and the same under other names with references in another order. -/
def wArrays : List ArrRefs :=
  [⟨"a", [20, 30], [[-1, 0], [0, -1], [0, 1], [1, 0]], []⟩, ⟨"b", [20, 30], [[0, 0]], [[0, 0]]⟩]
def wArrays' : List ArrRefs :=
  [⟨"a", [20, 30], [[0, 0]], [[0, 0]]⟩, ⟨"b", [20, 30], [[0, 1], [1, 0], [-1, 0], [0, -1]], []⟩]
example : SameKernel swapped wArrays wArrays' :=
  ⟨wArrays'.reverse, .cons ⟨by decide +kernel, rfl, by decide, by decide⟩ (.cons ⟨by decide +kernel, rfl, by decide, by decide⟩ .nil),
    List.reverse_perm _⟩
example : allDistances wArrays = [some 29, some 2, some 29, none, none] ∧
    allDistances wArrays' = [none, some 29, some 2, some 29, none] := by decide +kernel
/-- Distances as the code orders them, see `LayerCond.mk8`. -/
def wMk (b : Int) : Dist Nat := ⟨b.natAbs, b.natAbs, b⟩
def wCaches : List (Cache Nat) := [⟨500, false, fun _ => false, [wMk 232, wMk 16]⟩, ⟨4000, true, fun _ => true, [wMk 232, wMk 16]⟩]
example : SameCaches (work wMk 8 wArrays) wCaches wCaches := by
  have ht : IsTails (work wMk 8 wArrays).ds [wMk 232, wMk 16] := by
    refine ⟨by decide, fun d => ?_, by decide⟩
    rw [show (work wMk 8 wArrays).ds = [wMk 232, wMk 16, wMk 232] by decide +kernel]
    simp
    tauto
  exact .cons ⟨ht, ht, rfl⟩ (.cons ⟨ht, ht, rfl⟩ .nil)
example : (traffic (work wMk 8 wArrays) wCaches).map getLoads = some [none, some 4, some 2] := by decide +kernel

end Verif.Names
