import Verif.Model.MergeFiles
import Verif.Props.Merge

/-!
Lemmas about `picklemerge`.
-/

namespace Verif.Cli.MergeFiles

open Verif.Cli

variable {C K V : Type} [DecidableEq K]

omit [DecidableEq K] in
theorem loadMapping_ok (e : Env C K V) (fs : Files C) (p : String) (f : Forest K V) (h : loadMapping e fs p = .ok f) :
    ∃ c, fs p = some c ∧ e.load c = .ok (.node f) ∧ e.minor < 10 := by
  unfold loadMapping at h
  split at h
  · cases h
  · rename_i c hc
    refine ⟨c, hc, ?_⟩
    split at h
    · cases h
    · rename_i t ht
      split at h
      · cases h
      · rename_i hm
        split at h
        · cases h
        · cases h
          exact ⟨ht, by omega⟩

omit [DecidableEq K] in
theorem loadMapping_of (e : Env C K V) (fs : Files C) (p : String) (f : Forest K V) (c : C) (hc : fs p = some c) (h : e.load c = .ok (.node f))
    (hm : e.minor < 10) : loadMapping e fs p = .ok f := by
  simp only [loadMapping, hc, h]
  rw [if_neg (by omega)]

/-- The dictionaries of the sources, in order. -/
def Reads (e : Env C K V) (fs : Files C) : List String → List (Forest K V) → Prop :=
  List.Forall₂ fun p f => ∃ c, fs p = some c ∧ e.load c = .ok (.node f)

omit [DecidableEq K] in
theorem reads_mem (e : Env C K V) (fs : Files C) (ss : List String) (us : List (Forest K V)) (h : Reads e fs ss us) (p : String) (hp : p ∈ ss) :
    ∃ c f, fs p = some c ∧ e.load c = .ok (.node f) := by
  induction h with
  | nil => simp at hp
  | cons h _ ih =>
    rcases List.mem_cons.1 hp with rfl | hp
    · obtain ⟨c, h1, h2⟩ := h
      exact ⟨c, _, h1, h2⟩
    · exact ih hp

/-- The merge of several dictionaries into one, as a relation. -/
inductive Merged : Forest K V → List (Forest K V) → Forest K V → Prop
  | done (d) : Merged d [] d
  | step (d u d' us r) : update d u = .ok d' → Merged d' us r → Merged d (u :: us) r

theorem mergeAll_ok (e : Env C K V) (fs : Files C) (d r : Forest K V) (ss : List String) (h : mergeAll e fs d ss = .ok r) :
    ∃ us, Reads e fs ss us ∧ Merged d us r := by
  induction ss generalizing d with
  | nil =>
    simp only [mergeAll, Except.ok.injEq] at h
    subst h
    exact ⟨[], .nil, .done _⟩
  | cons s ss ih =>
    unfold mergeAll at h
    split at h
    · cases h
    · rename_i u hu
      split at h
      · cases h
      · rename_i d' hd
        obtain ⟨us, h1, h2⟩ := ih d' h
        obtain ⟨c, hc, hl, hm⟩ := loadMapping_ok e fs s u hu
        rw [updateIn, if_neg (by omega)] at hd
        exact ⟨u :: us, .cons ⟨c, hc, hl⟩ h1, .step _ _ _ _ _ hd h2⟩

theorem merged_new (d r : Forest K V) (us : List (Forest K V)) (hw : ∀ u ∈ us, u.Wf) (h : Merged d us r) :
    (∀ p v, LeafAt d p v → (∀ u ∈ us, ¬ Touches u p) → LeafAt r p v) ∧
    (∀ before u after, us = before ++ u :: after → ∀ p v, LeafAt u p v → (∀ w ∈ after, ¬ Touches w p) → LeafAt r p v) ∧
    (∀ p v, LeafAt r p v → LeafAt d p v ∨ ∃ u ∈ us, LeafAt u p v) := by
  induction h with
  | done d =>
    refine ⟨fun p v h _ => h, ?_, fun p v h => Or.inl h⟩
    intro before u after h
    simp at h
  | step d u d' us r hu h ih =>
    obtain ⟨i1, i2, i3⟩ := ih fun w hw' => hw w (by simp [hw'])
    refine ⟨?_, ?_, ?_⟩
    · intro p v hp ht
      exact i1 p v (C35_old_leaves d u d' (hw u (by simp)) hu p v hp (ht u (by simp))) fun w hw' => ht w (by simp [hw'])
    · intro before x after he p v hp ht
      cases before with
      | nil =>
        simp only [List.nil_append, List.cons.injEq] at he
        obtain ⟨rfl, rfl⟩ := he
        exact i1 p v (C35_new_leaves d u d' (hw u (by simp)) hu p v hp) ht
      | cons b before =>
        simp only [List.cons_append, List.cons.injEq] at he
        exact i2 before x after he.2 p v hp ht
    · intro p v hp
      rcases i3 p v hp with h1 | ⟨w, hw', h1⟩
      · rcases C35_nothing_else d u d' (hw u (by simp)) hu p v h1 with h2 | h2
        · exact Or.inr ⟨u, by simp, h2⟩
        · exact Or.inl h2
      · exact Or.inr ⟨w, by simp [hw'], h1⟩

omit [DecidableEq K] in
theorem openAll_ok (fs : Files C) (ps : List String) (h : ∀ p ∈ ps, (fs p).isSome) : openAll fs ps = .ok () := by
  induction ps with
  | nil => rfl
  | cons p ps ih =>
    obtain ⟨c, hc⟩ := Option.isSome_iff_exists.1 (h p (by simp))
    simp only [openAll, hc]
    exact ih fun q hq => h q (by simp [hq])

theorem mergeAll_succeeds (e : Env C K V) (fs : Files C) (hm : e.minor < 10) (d : Forest K V) (ss : List String) (us : List (Forest K V))
    (hr : Reads e fs ss us) (hw : ∀ u ∈ us, u.Wf) (files : List (Forest K V)) (hd : ∀ p v, LeafAt d p v → ∃ f ∈ files, LeafAt f p v)
    (hc : ∀ f ∈ files, ∀ u ∈ us, ¬ Conflict f u) (hp : us.Pairwise fun f u => ¬ Conflict f u) : ∃ r, mergeAll e fs d ss = .ok r := by
  induction hr generalizing d files with
  | nil => exact ⟨d, rfl⟩
  | @cons s u ss us hsu _ ih =>
    obtain ⟨c, h1, h2⟩ := hsu
    cases hu : update d u with
    | error m =>
      obtain ⟨p, v, f, h3, h4, h5⟩ := (C35_rejected_iff d u (hw u (by simp))).1 ⟨m, hu⟩
      obtain ⟨g, hg, h6⟩ := hd p v h3
      exact absurd ⟨p, v, f, h6, h4, h5⟩ (hc g hg u (by simp))
    | ok d' =>
      rw [List.pairwise_cons] at hp
      obtain ⟨r, h⟩ := ih d' (fun w hw' => hw w (by simp [hw'])) (u :: files) (by
        intro p v hp
        rcases C35_nothing_else d u d' (hw u (by simp)) hu p v hp with h | h
        · exact ⟨u, by simp, h⟩
        · obtain ⟨f, hf, h⟩ := hd p v h
          exact ⟨f, by simp [hf], h⟩) (by
        intro f hf w hw'
        rcases List.mem_cons.1 hf with rfl | hf
        · exact hp.1 w hw'
        · exact hc f hf w (by simp [hw'])) hp.2
      refine ⟨r, ?_⟩
      have hu' : updateIn e.minor d u = .ok d' := by rw [updateIn, if_neg (by omega), hu]
      simp only [mergeAll, loadMapping_of e fs s u c h1 h2 hm, hu']
      exact h

end Verif.Cli.MergeFiles
