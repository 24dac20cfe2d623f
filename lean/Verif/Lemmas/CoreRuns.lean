import Verif.Spec.CoreRuns
import Verif.Props.Machine

/-! Lemmas for C146. -/

namespace Verif.CoreRuns

variable {R : Type} (levels : List Machine.Level) (numaCores : Nat) (ana : Kind → Consts → List Nat → R)

theorem cachesim_none (cores : Nat) (hn : 0 < numaCores) (hc : 0 < cores) :
    Machine.getCachesim levels numaCores none cores =
      (some (setsAt levels numaCores cores), some (setsAt levels numaCores cores)) := by
  unfold Machine.getCachesim
  rw [Machine.buildSim_eq levels numaCores cores (by omega)]
  rfl

theorem cachesim_some (s : List Nat) (cores : Nat) : Machine.getCachesim levels numaCores (some s) cores = (some s, some s) := rfl

/-- Each stored analysis is that for its number of cores. -/
def Sound (disk : Key → Option R) : Prop :=
  ∀ k n c r, disk (key k n c) = some r → r = right levels numaCores ana k n c

theorem key_right (k k' : Kind) (n n' : Nat) (c c' : Consts) (h : key k n c = key k' n' c') :
    right levels numaCores ana k n c = right levels numaCores ana k' n' c' := by
  unfold key at h
  simp only [Prod.mk.injEq] at h
  obtain ⟨rfl, rfl, h⟩ := h
  cases k <;> simp_all [right]

/-- The machine keeps no simulator, or one with the given sets. -/
def Keeps (s : List Nat) (st : St R) : Prop := st.memo = none ∨ st.memo = some s

theorem predict_spec (k : Kind) (cores : Nat) (hn : 0 < numaCores) (hc : 0 < cores) (consts : Consts) (st : St R)
    (hs : Sound levels numaCores ana st.disk)
    (hm : Keeps (setsAt levels numaCores cores) st ∨ (st.disk (key k cores consts)).isSome) :
    ∃ st', predict levels numaCores ana k cores consts st = some (right levels numaCores ana k cores consts, st') ∧
      Sound levels numaCores ana st'.disk ∧ (st'.disk (key k cores consts)).isSome ∧
      (∀ q, (st.disk q).isSome → (st'.disk q).isSome) ∧
      (st'.memo = st.memo ∨ st'.memo = some (setsAt levels numaCores cores)) := by
  unfold predict
  cases hd : st.disk (key k cores consts) with
  | some r => exact ⟨st, by simp [hs k cores consts r hd], hs, by rw [hd]; rfl, fun q h => h, .inl rfl⟩
  | none =>
    have hk : Keeps (setsAt levels numaCores cores) st := by
      rcases hm with h | h
      · exact h
      · rw [hd] at h; simp at h
    have hg : Machine.getCachesim levels numaCores st.memo cores =
        (some (setsAt levels numaCores cores), some (setsAt levels numaCores cores)) := by
      rcases hk with h | h <;> rw [h]
      · exact cachesim_none levels numaCores cores hn hc
      · rfl
    have hr : ana k (key k cores consts).2.2 (setsAt levels numaCores cores) = right levels numaCores ana k cores consts := by
      cases k <;> rfl
    simp only [hg, hr]
    refine ⟨_, rfl, ?_, ?_, ?_, .inr rfl⟩
    · intro k' n' c' r h
      dsimp only at h
      split at h
      · rename_i he
        rw [← Option.some.inj h]
        exact key_right levels numaCores ana _ _ _ _ _ _ he.symm
      · exact hs _ _ _ _ h
    · simp
    · intro q h
      dsimp only
      split
      · rfl
      · exact h

/-- What holds for every outcome of unmixed runs. -/
def Good (k : Kind) (cores : Nat) (x : Step × Outcome R) : Prop :=
  match x.2 with
  | .prediction p => x.1.2 ∈ predicting ∧ p = right levels numaCores ana k cores x.1.1
  | .conditions c heading => x.1.2 = "LC" ∧ c = right levels numaCores ana .lc 1 x.1.1 ∧
      (heading = setsAt levels numaCores 1 ∨ heading = setsAt levels numaCores cores)
  | .nothing => x.1.2 ∉ predicting ∧ x.1.2 ≠ "LC"

theorem model_first (k : Kind) (cores : Nat) (hn : 0 < numaCores) (hc : 0 < cores) (consts : Consts) (name : String) (st : St R)
    (hname : name = "LC" → setsAt levels numaCores cores = setsAt levels numaCores 1)
    (hs : Sound levels numaCores ana st.disk) (hm : Keeps (setsAt levels numaCores cores) st) :
    ∃ o st', model levels numaCores ana k cores consts name st = some (o, st') ∧
      Good levels numaCores ana k cores ((consts, name), o) ∧ Sound levels numaCores ana st'.disk ∧
      Keeps (setsAt levels numaCores cores) st' := by
  have hkeep : ∀ st' : St R, (st'.memo = st.memo ∨ st'.memo = some (setsAt levels numaCores cores)) →
      Keeps (setsAt levels numaCores cores) st' := by
    rintro st' (h | h)
    · unfold Keeps; rw [h]; exact hm
    · exact .inr h
  unfold model
  by_cases h1 : name ∈ predicting
  · obtain ⟨st', hp, hs', -, -, hm'⟩ := predict_spec levels numaCores ana k cores hn hc consts st hs (.inl hm)
    simp only [h1, if_true, hp, Option.map_some]
    exact ⟨_, _, rfl, ⟨h1, rfl⟩, hs', hkeep _ hm'⟩
  · simp only [h1, if_false]
    by_cases h2 : name = "LC"
    · have he := hname h2
      obtain ⟨st', hp, hs', -, -, hm'⟩ := predict_spec levels numaCores ana .lc 1 hn (by omega) consts st hs
        (.inl (by rw [← he]; exact hm))
      rw [← he] at hm'
      have hk' := hkeep _ hm'
      have hg : Machine.getCachesim levels numaCores st'.memo cores =
          (some (setsAt levels numaCores cores), some (setsAt levels numaCores cores)) := by
        rcases hk' with h | h <;> rw [h]
        · exact cachesim_none levels numaCores cores hn hc
        · rfl
      simp only [h2, if_true, hp, hg]
      exact ⟨_, _, rfl, ⟨rfl, rfl, .inr rfl⟩, hs', .inr rfl⟩
    · simp only [h2, if_false]
      exact ⟨_, _, rfl, ⟨h1, h2⟩, hs, hm⟩

theorem model_second (k : Kind) (cores : Nat) (hn : 0 < numaCores) (hc : 0 < cores) (consts : Consts) (name : String) (st : St R)
    (hname : name ∉ predicting) (hs : Sound levels numaCores ana st.disk)
    (hm : Keeps (setsAt levels numaCores 1) st ∨ (st.disk (key .lc 1 [])).isSome ∧ Keeps (setsAt levels numaCores cores) st) :
    ∃ o st', model levels numaCores ana k cores consts name st = some (o, st') ∧
      Good levels numaCores ana k cores ((consts, name), o) ∧ Sound levels numaCores ana st'.disk ∧
      (Keeps (setsAt levels numaCores 1) st' ∨ (st'.disk (key .lc 1 [])).isSome ∧ Keeps (setsAt levels numaCores cores) st') := by
  unfold model
  simp only [hname, if_false]
  by_cases h2 : name = "LC"
  · obtain ⟨st', hp, hs', hd, hmono, hm'⟩ := predict_spec levels numaCores ana .lc 1 hn (by omega) consts st hs
      (hm.imp id fun h => h.1)
    simp only [h2, if_true, hp]
    have hcase : st'.memo = none ∨ st'.memo = some (setsAt levels numaCores 1) ∨ st'.memo = some (setsAt levels numaCores cores) := by
      rcases hm' with h | h
      · rw [h]
        rcases hm with (h | h) | ⟨-, h | h⟩ <;> simp [h]
      · simp [h]
    rcases hcase with h | h | h <;> rw [h]
    · rw [cachesim_none levels numaCores cores hn hc]
      exact ⟨_, _, rfl, ⟨rfl, rfl, .inr rfl⟩, hs', .inr ⟨hd, .inr rfl⟩⟩
    · exact ⟨_, _, rfl, ⟨rfl, rfl, .inl rfl⟩, hs', .inl (.inr rfl)⟩
    · exact ⟨_, _, rfl, ⟨rfl, rfl, .inr rfl⟩, hs', .inr ⟨hd, .inr rfl⟩⟩
  · simp only [h2, if_false]
    exact ⟨_, _, rfl, ⟨hname, h2⟩, hs, hm⟩

/-- An invariant of the steps of a run. -/
theorem steps_inv (k : Kind) (cores : Nat) (I : St R → Prop) (G : Step × Outcome R → Prop) : ∀ (l : List Step) (st : St R),
    (∀ x ∈ l, ∀ st, I st → ∃ o st', model levels numaCores ana k cores x.1 x.2 st = some (o, st') ∧ G (x, o) ∧ I st') → I st →
    ∃ out st', steps levels numaCores ana k cores l st = some (out, st') ∧ out.map (·.1) = l ∧ (∀ x ∈ out, G x) ∧ I st'
  | [], st, _, h => ⟨[], st, rfl, rfl, by simp, h⟩
  | (c, m) :: l, st, hstep, h => by
    obtain ⟨o, st1, h1, h2, h3⟩ := hstep (c, m) (by simp) st h
    obtain ⟨out, st2, h4, h5, h6, h7⟩ := steps_inv k cores I G l st1 (fun x hx => hstep x (by simp [hx])) h3
    refine ⟨_, st2, by simp only [steps, h1, h4, Option.map_some]; rfl, by simp [h5], ?_, h7⟩
    intro x hx
    rcases List.mem_cons.1 hx with rfl | hx
    · exact h2
    · exact h6 x hx

theorem stepsOf_mem (r : Run) (x : Step) (h : x ∈ stepsOf r) : x.2 ∈ r.pmodels := by
  unfold stepsOf at h
  simp only [List.mem_flatMap, List.mem_map] at h
  obtain ⟨d, -, m, hm, rfl⟩ := h
  exact hm

theorem run_good (r : Run) (hn : 0 < numaCores) (hc : 0 < r.cores) (hu : Unmixed levels numaCores r) (disk : Key → Option R)
    (hs : Sound levels numaCores ana disk) :
    ∃ out disk', run levels numaCores ana r disk = some (out, disk') ∧ out.map (·.1) = stepsOf r ∧
      (∀ x ∈ out, Good levels numaCores ana r.predictor r.cores x) ∧ Sound levels numaCores ana disk' := by
  by_cases hp : ∃ m ∈ r.pmodels, m ∈ predicting
  · obtain ⟨out, st', h1, h2, h3, h4⟩ := steps_inv levels numaCores ana r.predictor r.cores
      (fun st => Sound levels numaCores ana st.disk ∧ Keeps (setsAt levels numaCores r.cores) st)
      (Good levels numaCores ana r.predictor r.cores) (stepsOf r) ⟨none, disk⟩
      (fun x hx st h => model_first levels numaCores ana r.predictor r.cores hn hc x.1 x.2 st
        (fun he => hu (he ▸ stepsOf_mem r x hx) hp) h.1 h.2) ⟨hs, .inl rfl⟩
    unfold stepsOf at h1
    exact ⟨out, st'.disk, by simp [run, h1], h2, h3, h4.1⟩
  · obtain ⟨out, st', h1, h2, h3, h4⟩ := steps_inv levels numaCores ana r.predictor r.cores
      (fun st => Sound levels numaCores ana st.disk ∧ (Keeps (setsAt levels numaCores 1) st ∨
        (st.disk (key .lc 1 [])).isSome ∧ Keeps (setsAt levels numaCores r.cores) st))
      (Good levels numaCores ana r.predictor r.cores) (stepsOf r) ⟨none, disk⟩
      (fun x hx st h => model_second levels numaCores ana r.predictor r.cores hn hc x.1 x.2 st
        (fun he => hp ⟨x.2, stepsOf_mem r x hx, he⟩) h.1 h.2) ⟨hs, .inl (.inl rfl)⟩
    unfold stepsOf at h1
    exact ⟨out, st'.disk, by simp [run, h1], h2, h3, h4.1⟩

theorem runs_sound (hn : 0 < numaCores) : ∀ (rs : List Run) (disk : Key → Option R),
    (∀ r ∈ rs, 0 < r.cores ∧ Unmixed levels numaCores r) → Sound levels numaCores ana disk →
    ∃ disk', runs levels numaCores ana rs disk = some disk' ∧ Sound levels numaCores ana disk'
  | [], disk, _, hs => ⟨disk, rfl, hs⟩
  | r :: rs, disk, h, hs => by
    obtain ⟨out, d1, h1, -, -, h2⟩ := run_good levels numaCores ana r hn (h r (by simp)).1 (h r (by simp)).2 disk hs
    obtain ⟨d2, h3, h4⟩ := runs_sound hn rs d1 (fun x hx => h x (by simp [hx])) h2
    exact ⟨d2, by simp [runs, h1, h3], h4⟩

end Verif.CoreRuns
