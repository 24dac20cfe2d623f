import Verif.Lemmas.Sizes
import Verif.Props.Predict

/-!
Property C140: a larger problem never needs less traffic. Model: `Verif.Sizes`, `Verif.Names`, `Verif.LayerCond`;
specification: `Spec/Sizes.lean`.
-/

namespace Verif.Sizes

open Verif.LayerCond Verif.Names Verif.Predict

variable {K : Type} [LinearOrder K]

/-- C140: if constants of a kernel change so that no extent of an array shrinks, no level of the hierarchy has fewer loads
or stores. Sort keys are those of the expressions, whatever they are. -/
theorem C140_symbolic (ext : String → List Int) (arrays : List ArrRefs) (h : Larger ext arrays) (exprs : List (Nat × K))
    (el : Int) (hel : 0 ≤ el) (cs cs' : List (Cache K))
    (hc : SameSizes (symWork exprs el arrays) (symWork exprs el (arrays.map (resize ext))) cs cs') :
    ∃ os os', traffic (symWork exprs el arrays) cs = some os ∧
      traffic (symWork exprs el (arrays.map (resize ext))) cs' = some os' ∧
      List.Forall₂ (fun o o' => o.misses ≤ o'.misses ∧ o.evicts ≤ o'.evicts) os os' := by
  obtain ⟨os, os', h1, h2, h3⟩ := traffic_grown _ _ (grown_symWork ext arrays h exprs el hel) cs cs' hc
  exact ⟨os, os', h1, h2, h3.flip⟩

/-- C140: the same for two kernels with literal extents. -/
theorem C140_literal (ext : String → List Int) (arrays : List ArrRefs) (h : Larger ext arrays) (el : Int) (hel : 0 ≤ el)
    (cs cs' : List (Cache Nat))
    (hc : SameSizes (work number el arrays) (work number el (arrays.map (resize ext))) cs cs') :
    ∃ os os', traffic (work number el arrays) cs = some os ∧ traffic (work number el (arrays.map (resize ext))) cs' = some os' ∧
      List.Forall₂ (fun o o' => o.misses ≤ o'.misses ∧ o.evicts ≤ o'.evicts) os os' := by
  obtain ⟨os, os', h1, h2, h3⟩ := traffic_grown _ _ (grown_work ext arrays h el hel) cs cs' hc
  exact ⟨os, os', h1, h2, h3.flip⟩

/-- C140: if the bandwidths of the levels that are fed from memory do not fall with the traffic, the ECM model predicts at
least as many cycles per cacheline for the larger problem. -/
theorem C140_ecm (m : Mach) (hm : Sane m) (ext : String → List Int) (arrays : List ArrRefs) (h : Larger ext arrays)
    (exprs : List (Nat × K)) (el : Nat) (tComp tReg : ℚ) (cs cs' : List (Cache K))
    (hc : SameSizes (symWork exprs el arrays) (symWork exprs el (arrays.map (resize ext))) cs cs')
    (hb : ∀ i l, m.levels[i]? = some l → l.base.rate = .memory → Steady m none i) (t' : ℚ)
    (ht : ecm m el tComp tReg (symWork exprs el (arrays.map (resize ext))) cs' = some t') :
    ∃ t, ecm m el tComp tReg (symWork exprs el arrays) cs = some t ∧ t ≤ t' := by
  obtain ⟨os, os', h1, h2, h3⟩ := traffic_grown _ _ (grown_symWork ext arrays h exprs el (by positivity)) cs cs' hc
  exact ecm_mono m el tComp tReg _ _ cs' cs os' os h2 h1 h3 hm.clock (fun l hl => ⟨hm.rates l hl, hm.penalties l hl⟩)
    (fun i l hl hr hi => steady_ok m hm none os' os h3 i hi (hb i l hl hr)) t' ht

/-- C140: the extents of a stencil do not make its reuse distances negative or smaller. -/
theorem C140_distances (ext : String → List Int) (arrays : List ArrRefs) (h : Larger ext arrays) :
    List.Forall₂ (fun g g' => 0 ≤ g ∧ g ≤ g') (finite arrays) (finite (arrays.map (resize ext))) :=
  (finite_mono (allDistances_mono ext arrays h)).1

/-! ### Witnesses -/

/-- `double a[M][N], b[M][N]` with a 5-point stencil, and its reuse distances `N-1`, `2`, `N-1`, first for 20 x 30. -/
def wArrays : List ArrRefs :=
  [⟨"a", [20, 30], [[-1, 0], [0, -1], [0, 1], [1, 0]], []⟩, ⟨"b", [20, 30], [[0, 0]], [[0, 0]]⟩]
def wExt (_ : String) : List Int := [20, 200]
/-- Keys of `8*N - 8`, `16`, `8*N - 8`. -/
def wExprs : List (Nat × Nat) := [(1, 100), (0, 1), (1, 100)]
def wCaches (n : Int) : List (Cache Nat) := [⟨1000, false, fun _ => false, [⟨1, 100, n⟩, ⟨0, 1, 16⟩]⟩]

theorem wLarger : Larger wExt wArrays := by
  intro a ha
  simp only [wArrays, List.mem_cons, List.not_mem_nil, or_false] at ha
  rcases ha with rfl | rfl
  · refine ⟨by simp [Extents, wExt], ?_⟩
    simp [Within]
  · refine ⟨by simp [Extents, wExt], ?_⟩
    simp [Within]
example : finite wArrays = [29, 2, 29] ∧ finite (wArrays.map (resize wExt)) = [199, 2, 199] := by decide +kernel
theorem tails_ok (n : Int) (ds : List (Dist Nat)) (h : ds = [⟨1, 100, n⟩, ⟨0, 1, 16⟩, ⟨1, 100, n⟩]) :
    IsTails ds [⟨1, 100, n⟩, ⟨0, 1, 16⟩] := by
  subst h
  refine ⟨by simp, fun d => ?_, by simp⟩
  simp
  tauto
example : SameSizes (symWork wExprs 8 wArrays) (symWork wExprs 8 (wArrays.map (resize wExt))) (wCaches 232) (wCaches 1592) :=
  .cons ⟨tails_ok _ _ (by decide +kernel), tails_ok _ _ (by decide +kernel), rfl⟩ .nil
example : traffic (symWork wExprs 8 wArrays) (wCaches 232) = some [⟨true, false, 3, 2, 1⟩] ∧
    traffic (symWork wExprs 8 (wArrays.map (resize wExt))) (wCaches 1592) = some [⟨true, false, 1, 4, 1⟩] := by decide +kernel

/-- The caches of the machine of C138 with a single benchmark, with a first level of 1000 bytes. -/
def wThree (n : Int) : List (Cache Nat) :=
  [1000, 262144, 36000000].map fun s => ⟨s, false, fun _ => false, [⟨1, 100, n⟩, ⟨0, 1, 16⟩]⟩
example : ∃ t, ecm loadOnly 8 4 4 (symWork wExprs 8 wArrays) (wThree 232) = some t ∧
    t ≤ (ecm loadOnly 8 4 4 (symWork wExprs 8 (wArrays.map (resize wExt))) (wThree 1592)).getD 0 :=
  C140_ecm loadOnly loadOnly_sane wExt wArrays wLarger wExprs 8 4 4 (wThree 232) (wThree 1592)
    (.cons ⟨tails_ok _ _ (by decide +kernel), tails_ok _ _ (by decide +kernel), rfl⟩
      (.cons ⟨tails_ok _ _ (by decide +kernel), tails_ok _ _ (by decide +kernel), rfl⟩
        (.cons ⟨tails_ok _ _ (by decide +kernel), tails_ok _ _ (by decide +kernel), rfl⟩ .nil)))
    (fun i _ _ _ => steady_of_reading loadOnly (by decide) none i) _ (by decide +kernel)
example : (ecm loadOnly 8 4 4 (symWork wExprs 8 wArrays) (wThree 232)).getD 0 <
    (ecm loadOnly 8 4 4 (symWork wExprs 8 (wArrays.map (resize wExt))) (wThree 1592)).getD 0 := by decide +kernel

end Verif.Sizes
