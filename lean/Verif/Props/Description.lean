import Verif.Lemmas.Description
import Mathlib.Tactic.Tauto

/-!
C130: kernels from descriptions.
-/

namespace Verif.Description

open Verif.Datatype

/-- C130, partial: a description in which no name is one of sympy's names of several letters is accepted exactly if all its values stand for something, there is an array, and all arrays have the
same supported type; then the kernel is the one described. Missing: sympy's names (`C130_negation_number`, `C130_negation_function`). -/
theorem C130_read_partial (ns : Namespace) (d : Desc) (hn : ∀ s, d.Has s → Plain (fun s => ns s ≠ none) s) (hk : (d.arrays.map (·.1)).Nodup) :
    ((∃ k, read ns d = .ok k) ↔ (∃ k, Describes d k) ∧ d.arrays ≠ [] ∧ ∃ t, Supported t ∧ ∀ a ∈ d.arrays, a.2.1 = t) ∧
    ∀ k, read ns d = .ok k → Describes d k := by
  have hl : ∀ ls, d.loops.mapM (readLoop ns) = .ok ls ↔ List.Forall₂ (fun x l => l.1 = x.1 ∧ Means x.2.1 l.2.1 ∧ Means x.2.2.1 l.2.2.1 ∧ Means x.2.2.2 l.2.2.2) d.loops ls := by
    intro ls
    rw [mapM_iff, forall₂_congr d.loops ls fun x hx l => readLoop_iff ns x l fun s hs => hn s (Or.inl ⟨x, hx, hs⟩)]
  have ha : ∀ vs, d.arrays.mapM (readArray ns) = .ok vs ↔ List.Forall₂ (fun x v => v.1 = x.1 ∧ v.2.1 = x.2.1 ∧ MeansSize x.2.2 v.2.2) d.arrays vs := by
    intro vs
    rw [mapM_iff, forall₂_congr d.arrays vs fun x hx v => readArray_iff ns x v fun s hs => hn s (Or.inr (Or.inl ⟨x, hx, hs⟩))]
  have hs := accesses_spec ns d.sources fun s a h y hy hs => hn s (Or.inr (Or.inr ⟨a, Or.inl h, y, hy, hs⟩))
  have hd := accesses_spec ns d.destinations fun s a h y hy hs => hn s (Or.inr (Or.inr ⟨a, Or.inr h, y, hy, hs⟩))
  have hnames : ∀ vs : List (String × List String × Option (List Val)),
      List.Forall₂ (fun (x : String × List String × Yaml) v => v.1 = x.1 ∧ v.2.1 = x.2.1 ∧ MeansSize x.2.2 v.2.2) d.arrays vs → vs.map (·.1) = d.arrays.map (·.1) := by
    intro vs h
    clear hn hk hl ha hs hd
    generalize d.arrays = l at h
    induction h with
    | nil => rfl
    | cons h1 _ ih => simp [h1.1, ih]
  have hread : ∀ k, read ns d = .ok k ↔ ∃ st vs, d.loops.mapM (readLoop ns) = .ok k.loops ∧ d.arrays.mapM (readArray ns) = .ok vs ∧ describe vs = .ok st ∧
      st.datatype = k.datatype ∧ st.vars = k.vars ∧ d.sources.mapM (readAccesses ns) = .ok k.sources ∧ d.destinations.mapM (readAccesses ns) = .ok k.destinations := by
    rintro ⟨k1, k2, k3, k4, k5⟩
    simp only [read, bind, Except.bind, pure, Except.pure]
    cases d.loops.mapM (readLoop ns) with
    | error e => simp
    | ok ls =>
      cases d.arrays.mapM (readArray ns) with
      | error e => simp
      | ok vs =>
        simp only
        cases hdv : describe vs with
        | error e =>
          simp only [reduceCtorEq, false_iff, not_exists]
          rintro st vs' ⟨-, h, h', -⟩
          injection h with h
          rw [← h, hdv] at h'
          cases h'
        | ok st =>
          cases d.sources.mapM (readAccesses ns) with
          | error e => simp
          | ok ss =>
            cases d.destinations.mapM (readAccesses ns) with
            | error e => simp
            | ok ds =>
              simp only [Except.ok.injEq, Kernel.mk.injEq]
              constructor
              · rintro ⟨rfl, rfl, rfl, rfl, rfl⟩
                exact ⟨st, vs, rfl, rfl, hdv, rfl, rfl, rfl, rfl⟩
              · rintro ⟨st', vs', rfl, rfl, h, rfl, rfl, rfl, rfl⟩
                rw [hdv] at h
                injection h with h
                subst h
                exact ⟨rfl, rfl, rfl, rfl, rfl⟩
  have hok : ∀ k, read ns d = .ok k → Describes d k := by
    intro k hk'
    obtain ⟨st, vs, h1, h2, h3, h4, h5, h6, h7⟩ := (hread k).1 hk'
    have hv := (ha vs).1 h2
    obtain ⟨g1, g2⟩ := (describe_spec vs (by rw [hnames vs hv]; exact hk)).2 st h3
    refine ⟨(hl _).1 h1, by rw [← h5, g1]; exact hv, fun x hx => ?_, hs.1 _ h6, hd.1 _ h7⟩
    obtain ⟨v, hv', -, h, -⟩ := forall₂_left hv x hx
    rw [← h4, g2 v hv', h]
  refine ⟨⟨fun ⟨k, h⟩ => ⟨⟨k, hok k h⟩, ?_⟩, ?_⟩, hok⟩
  · obtain ⟨st, vs, -, h2, h3, -⟩ := (hread k).1 h
    have hv := (ha vs).1 h2
    obtain ⟨g1, t, g2, g3⟩ := (describe_spec vs (by rw [hnames vs hv]; exact hk)).1.1 ⟨st, h3⟩
    refine ⟨?_, t, g2, fun a h => ?_⟩
    · intro h
      rw [h] at hv
      cases hv
      exact g1 rfl
    · obtain ⟨v, hv', -, h, -⟩ := forall₂_left hv a h
      rw [← h, g3 v hv']
  · rintro ⟨⟨k, hk'⟩, hne, t, ht, hall⟩
    obtain ⟨ss, hss⟩ := hs.2 ⟨_, hk'.sources⟩
    obtain ⟨ds, hds⟩ := hd.2 ⟨_, hk'.destinations⟩
    have hv := hk'.vars
    obtain ⟨st, hst⟩ := (describe_spec k.vars (by rw [hnames _ hv]; exact hk)).1.2 ⟨by
      intro h
      rw [h] at hv
      generalize d.arrays = l at hv hne
      cases hv
      exact hne rfl, t, ht, fun v hv' => by
        obtain ⟨x, hx, -, h, -⟩ := forall₂_right hv v hv'
        rw [h, hall x hx]⟩
    exact ⟨⟨k.loops, st.datatype, st.vars, ss, ds⟩, (hread _).2 ⟨st, k.vars, (hl _).2 hk'.loops, (ha _).2 hv, hst, rfl, rfl, hss, hds⟩⟩

/-- `i - 1` -/
def before : Tree Leaf := .bin .sub (.leaf (.name "i")) (.leaf (.num 1))

def name (s : String) : Yaml := .text (.leaf (.name s))

/-- A stencil with the size `Nx`; one access is given twice. -/
def sample : Desc where
  loops := [("i", .int 1, name "Nx", .int 1)]
  arrays := [("a", ["double"], .list [name "Nx"]), ("s", ["double"], .null)]
  sources := [("a", [.list [.text before], .list [name "i"], .list [name "i"]]), ("s", [.null])]
  destinations := [("a", [.list [name "i"]])]

/-- Some names of sympy. -/
def sympyNames : Namespace
  | "pi" => some .number
  | "N" => some .callable
  | "beta" => some .callable
  | _ => none

example : (read sympyNames sample).map (fun k => (k.loops, k.sources)) =
    .ok ([("i", .expr (.leaf (.num 1)), .expr (.leaf (.sym "Nx" true)), .expr (.leaf (.num 1)))],
      [("a", [.tuple [.expr (.bin .sub (.leaf (.sym "i" true)) (.leaf (.num 1)))], .tuple [.expr (.leaf (.sym "i" true))]]), ("s", [.none])]) := by
  decide +kernel

example : (∀ s, sample.Has s → Plain (fun s => sympyNames s ≠ none) s) ∧ (sample.arrays.map (·.1)).Nodup := by
  refine ⟨fun s h => ?_, by decide⟩
  simp only [Desc.Has, sample, name, before, List.mem_cons, List.not_mem_nil, or_false, exists_eq_left, exists_eq_or_imp, or_and_right, exists_or, has_int, has_null,
    has_text, has_list, mem_leaf, mem_bin, Leaf.name.injEq, reduceCtorEq, false_or] at h
  have : s = "i" ∨ s = "Nx" := by tauto
  rcases this with rfl | rfl
  · exact Or.inl (by decide)
  · exact Or.inr (by simp [sympyNames])

/-- The sample with another name of the size. -/
def renamed (s : String) : Desc := { sample with loops := [("i", .int 1, name s, .int 1)], arrays := [("a", ["double"], .list [name s])] }

/-- C130 does not hold: a size with the name `pi` becomes the number. -/
theorem C130_negation_number : (read sympyNames (renamed "pi")).map (fun k => k.vars) = .ok [("a", ["double"], some [.expr (.leaf (.const "pi"))])] := by decide +kernel

/-- C130 does not hold: a size with the name `beta` is rejected. -/
theorem C130_negation_function : read sympyNames (renamed "beta") = .error "TypeError" := by rfl

end Verif.Description
