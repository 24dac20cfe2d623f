import Verif.Spec.RegionEcm
import Verif.Lemmas.Layout
import Verif.Props.Measure

/-! Lemmas for C142. -/

namespace Verif.RegionEcm

open Verif.Bench Verif.Transfer Verif.Measure

variable {N D P R S : Type} [DecidableEq N] [DecidableEq D] [DecidableEq P] [DecidableEq R] [DecidableEq S]

omit [DecidableEq D] in
theorem matchSymbols_plain {V : Type} (plain : P) (opts : D → Gen R) (measured : List (N × List ((R × P) × V))) (l : List (S × Ev N D P))
    (h : ∀ x ∈ l, x.2.params = plain) (res : List (S × V)) :
    matchSymbols plain opts measured l res = Measure.matchSymbols opts measured l res := by
  induction l generalizing res with
  | nil => rfl
  | cons x l ih =>
    obtain ⟨s, e⟩ := x
    have he : e.params = plain := h (s, e) (by simp)
    have ih := fun r => ih (fun x hx => h x (List.mem_cons_of_mem _ hx)) r
    simp only [matchSymbols, Measure.matchSymbols, ih, he]
    rfl

theorem counters_plain {V : Type} (plain : P) (opts : D → Gen R) (count : Nat → N × R × P → V) (l : List (S × Ev N D P)) (fuel : Nat)
    (h : ∀ x ∈ l, x.2.params = plain) : counters plain opts count l fuel = Measure.counters opts count l fuel := by
  unfold counters Measure.counters
  congr 1
  funext r
  cases r with
  | error x => rfl
  | ok runs => exact matchSymbols_plain plain opts _ l h []

/-- All symbols get the values of their events. -/
theorem counters_values (opts : D → Gen R) (count : Nat → N × R × P → ℚ) (val : N → P → ℚ) (hc : Repeatable count val) (event : S → Ev N D P)
    (l : List S) (ho : ∀ s ∈ l, (opts (event s).regs).raises = false ∧ (opts (event s).regs).vals ≠ [])
    (hn : ∀ s ∈ l, ∀ t ∈ l, (event s).name = (event t).name → event s = event t) :
    ∃ out, Measure.counters opts count (l.map fun s => (s, event s)) l.length = some (.ok out) ∧
      ∀ s ∈ l, get s out = some (val (event s).name (event s).params) := by
  have hmap : (l.map fun s => (s, event s)).map Prod.snd = l.map event := by simp
  obtain ⟨runs, hr, -⟩ := C29_terminates opts (l.map event) (by
    intro e he
    obtain ⟨s, hs, rfl⟩ := List.mem_map.1 he
    exact ho s hs)
  rw [List.length_map] at hr
  obtain ⟨out, h1, h2⟩ := C75_names_partial opts count (l.map fun s => (s, event s)) l.length runs (by rw [hmap]; exact hr)
    (by
      intro x hx
      obtain ⟨s, hs, rfl⟩ := List.mem_map.1 hx
      exact (ho s hs).1)
    (by
      intro x hx y hy
      obtain ⟨s, hs, rfl⟩ := List.mem_map.1 hx
      obtain ⟨t, ht, rfl⟩ := List.mem_map.1 hy
      exact hn s hs t ht)
  refine ⟨out, h1, fun s hs => ?_⟩
  obtain ⟨v, hv, e, he, i, run, r, -, -, -, rfl⟩ := h2 (s, event s) (List.mem_map.2 ⟨s, hs, rfl⟩)
  obtain ⟨t, ht, hte⟩ := List.mem_map.1 he
  simp only [Prod.mk.injEq] at hte
  obtain ⟨rfl, rfl⟩ := hte
  rw [hv, hc]

omit [DecidableEq N] [DecidableEq D] [DecidableEq P] [DecidableEq R] in
theorem eval_values (event : S → Ev N D P) (val : N → P → ℚ) (m : Metric S) (out : List (S × ℚ))
    (h : ∀ s ∈ m.syms, get s out = some (val (event s).name (event s).params)) :
    m.eval out = m.value (m.syms.map fun s => val (event s).name (event s).params) := by
  have : (m.syms.mapM fun s => get s out) = some (m.syms.map fun s => val (event s).name (event s).params) := by
    generalize m.syms = l at h ⊢
    induction l with
    | nil => rfl
    | cons s l ih =>
      rw [List.mapM_cons, h s (by simp), ih fun t ht => h t (List.mem_cons_of_mem _ ht)]
      rfl
  unfold Metric.eval
  rw [this]
  rfl

omit [DecidableEq S] in
theorem mem_levels (levels : List (String × List (String × Metric S))) (l k : String) (m : Metric S) (h : metricOf levels l k = some m) :
    ∃ x ∈ levels, ∃ y ∈ x.2, y.2 = m := by
  unfold metricOf at h
  rw [Option.bind_eq_some_iff] at h
  obtain ⟨ks, h1, h2⟩ := h
  exact ⟨_, Layout.lookup_mem _ _ _ h1, _, Layout.lookup_mem _ _ _ h2, rfl⟩

end Verif.RegionEcm
