import Verif.Spec.Install
import Mathlib.Tactic.IntervalCases

/-!
Lemmas on the installation of IACA.
-/

namespace Verif.Install

theorem choose_free (d : Disk) (p : Place) (h : choose d = some p) : Free (d.at p) ∧ (p = .home → ¬Free d.package) := by
  unfold choose at h
  split at h
  · rename_i h1
    cases h
    simp only [Bool.and_eq_true, Option.isNone_iff_eq_none] at h1
    exact ⟨h1, by simp⟩
  · rename_i h1
    split at h
    · rename_i h2
      cases h
      simp only [Bool.and_eq_true, Option.isNone_iff_eq_none] at h1 h2
      exact ⟨h2, fun _ => h1⟩
    · cases h

theorem choose_none (d : Disk) (h : choose d = none) (p : Place) : ¬Free (d.at p) := by
  unfold choose at h
  split at h
  · cases h
  · rename_i h1
    split at h
    · cases h
    · rename_i h2
      simp only [Bool.and_eq_true, Option.isNone_iff_eq_none] at h1 h2
      cases p
      · exact h2
      · exact h1

theorem at_set (d : Disk) (l : Loc) (p : Place) : (d.set l p).at p = l ∧ (d.set l p).at p.other = d.at p.other := by cases p <;> exact ⟨rfl, rfl⟩

theorem valid_iff (l : Loc) : l.valid = true ↔ Usable l := by
  unfold Loc.valid Usable
  cases l.dir with
  | none => simp
  | some d =>
    have h : ∀ r, d.exists r = true ↔ ∃ v, (r, v) ∈ d.links ∧ ∃ os, (v, os) ∈ d.versions := by
      intro r
      simp only [Dir.exists, List.any_eq_true, Bool.and_eq_true, beq_iff_eq]
      constructor
      · rintro ⟨⟨a, b⟩, hm, rfl, ⟨c, os⟩, hv, rfl⟩
        exact ⟨_, hm, os, hv⟩
      · rintro ⟨v, hm, os, hv⟩
        exact ⟨(r, v), hm, rfl, (v, os), hv, rfl⟩
    simp only [List.all_eq_true, h, Option.some.injEq, exists_eq_left']

theorem valid_none (l : Loc) (h : l.dir = none) : l.valid = false := by simp [Loc.valid, h]

theorem take_valid (os : Os) (ok : Nat) (h : ok < steps.length) (b : Bool) : Loc.valid ⟨some (runSteps os (steps.take ok)), b⟩ = false := by
  have h : ok < 8 := h
  interval_cases ok <;> cases os <;> cases b <;> decide

theorem all_valid (os : Os) (ok : Nat) (h : ¬ok < steps.length) (b : Bool) : Loc.valid ⟨some (runSteps os (steps.take ok)), b⟩ = true := by
  rw [List.take_of_length_le (by omega)]
  cases os <;> cases b <;> decide

theorem all_complete (os : Os) (ok : Nat) (h : ¬ok < steps.length) : Complete os (runSteps os (steps.take ok)) := by
  rw [List.take_of_length_le (by omega)]
  intro r hr
  simp only [List.mem_cons, List.not_mem_nil, or_false] at hr
  rcases hr with rfl | rfl | rfl
  · exact ⟨"v2.2", by simp [runSteps, steps, Step.run], by simp [runSteps, steps, Step.run]⟩
  · exact ⟨"v2.3", by simp [runSteps, steps, Step.run], by simp [runSteps, steps, Step.run]⟩
  · exact ⟨"v3.0", by simp [runSteps, steps, Step.run], by simp [runSteps, steps, Step.run]⟩

/-- Each run either leaves the disk as it is or installs for some system. -/
theorem main_cases (machine : Option Os) (argv : List String) (ok : Nat) (d : Disk) :
    (∃ os, main machine argv ok d = install os ok d) ∨
      (main machine argv ok d).2 = d ∧ ((main machine argv ok d).1 = .already ∨ (main machine argv ok d).1 = .license ∨ (main machine argv ok d).1 = .assertion) := by
  have hc : ∀ m a, (∃ os, checked m a ok d = install os ok d) ∨
      (checked m a ok d).2 = d ∧ ((checked m a ok d).1 = .already ∨ (checked m a ok d).1 = .license ∨ (checked m a ok d).1 = .assertion) := by
    intro m a
    unfold checked
    split
    · split
      · simp
      · split
        · exact .inl ⟨m, rfl⟩
        · split
          · simp
          · exact .inl ⟨_, rfl⟩
    · simp
  unfold main
  split
  · simp
  · split
    · split
      · exact hc _ _
      · simp
    · exact hc _ _

theorem install_none (os : Os) (ok : Nat) (d : Disk) (h : choose d = none) : install os ok d = (.aborted, d) := by simp [install, h]

theorem install_some (os : Os) (ok : Nat) (d : Disk) (p : Place) (h : choose d = some p) :
    install os ok d = (if ok < steps.length then .failed p else .installed p, d.set { d.at p with dir := some (runSteps os (steps.take ok)) } p) := by
  simp [install, h]

theorem findIaca_eq (d : Disk) (p : Place) : findIaca d = some p ↔ (d.at p).valid = true ∧ (p = .package → d.home.valid = false) := by
  unfold findIaca
  cases p <;> cases hh : d.home.valid <;> cases hp : d.package.valid <;> simp [Disk.at, hh, hp]

theorem findIaca_none (d : Disk) : findIaca d = none ↔ d.home.valid = false ∧ d.package.valid = false := by
  unfold findIaca
  cases d.home.valid <;> cases d.package.valid <;> simp

end Verif.Install
