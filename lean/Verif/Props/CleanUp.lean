import Verif.Lemmas.CleanUp
import Mathlib.Data.Fintype.Basic
import Mathlib.Tactic.FinCases

/-!
C114: cleaning up intermediate files does not disturb other runs.
-/

namespace Verif.CleanUp

variable {ι : Type} [DecidableEq ι]

/-- No two runs write the file at the same time, nobody reads what is being written, and a run that reads finds a complete file. -/
def Undisturbed (s : State ι) : Prop :=
  (∀ p q, p ≠ q → (s.pc p = .writing ∨ s.pc p = .partialWrite) →
    s.pc q ≠ .writing ∧ s.pc q ≠ .partialWrite ∧ s.pc q ≠ .reading) ∧
  ∀ p, s.pc p = .reading → s.file = ⟨true, true⟩

/-- C114, if intermediate files are removed only while no run is active (missing: removal at any time, see the negations). -/
theorem C114_partial (s t : State ι) (h0 : Initial s) (h : Run True s t) : Undisturbed t := by
  have hi := inv_run s t h (inv_initial s h0)
  refine ⟨fun p q hpq hp => ?_, fun p hp => hi.whole p (by rw [hp]; rfl)⟩
  have := alone t hi p q (Ne.symm hpq) (by rcases hp with e | e <;> rw [e] <;> rfl)
  refine ⟨?_, ?_, ?_⟩ <;> intro e <;> rw [e] at this <;> cases this

/-- Before three runs, without any files. -/
def fresh : State (Fin 3) := ⟨fun _ => .idle, fun _ => .none, fun _ => 0, none, 0, ⟨false, false⟩⟩

theorem fresh_initial : Initial fresh := ⟨fun _ => rfl, fun _ => rfl, fun h => by cases h⟩

/-- The first run makes the file and ends. -/
theorem first_run (quiet : Prop) : ∃ t, Run quiet fresh t ∧ t.pc = Function.update (fun _ => .idle) 0 .done ∧ t.held = (fun _ => .none) ∧
    t.lockFile = (fun _ => 0) ∧ t.name = some 0 ∧ t.next = 1 ∧ t.file = ⟨true, true⟩ := by
  have r1 := (Run.nil (quiet := quiet) fresh).step (.openNew (p := 0) fresh rfl rfl)
  have r2 := r1.step (.grantSH (p := 0) _ (by simp [State.go]) (by intro q hq; simp [State.go, fresh, hq]))
  have r3 := r2.step (.check1 (p := 0) _ (by simp [State.go]))
  have r4 := r3.step (.unlock (p := 0) _ (by simp [State.go, fresh]))
  have r5 := r4.step (.grantEX (p := 0) _ (by simp [State.go]) (by intro q hq; simp [State.go, fresh, hq]))
  have r6 := r5.step (.check2 (p := 0) _ (by simp [State.go]))
  have r7 := r6.step (.write (p := 0) _ (by simp [State.go, fresh]))
  have r8 := r7.step (.finish (p := 0) _ (by simp [State.go]))
  have r9 := r8.step (.drop (p := 0) _ (by simp [State.go]))
  have r10 := r9.step (.grantSH2 (p := 0) _ (by simp [State.go]) (by intro q hq; simp [State.go, fresh, hq]))
  have r11 := r10.step (.close (p := 0) _ (by simp [State.go]))
  refine ⟨_, r11, ?_, ?_, ?_, ?_, ?_, ?_⟩ <;> simp [State.go, fresh]

/-- Two runs one after the other with a removal in between meet the condition of `C114_partial`; the second run makes the file again. -/
example : ∃ t : State (Fin 3), Run True fresh t ∧ t.pc 0 = .gone ∧ t.pc 1 = .writing ∧ t.lockFile 1 = 1 := by
  obtain ⟨t, r, hpc, hh, hl, hn, hx, hf⟩ := first_run True
  have r1 := r.remove (p := 0) (by simp [hpc]) (fun _ q => by fin_cases q <;> simp [State.active, hpc])
  have r2 := r1.step (.openNew (p := 1) _ (by simp [State.remove, State.go, hpc]) (by simp [State.remove]))
  have r3 := r2.step (.grantSH (p := 1) _ (by simp [State.go]) (by intro q hq; fin_cases q <;> simp [State.go, State.remove, hh] at hq ⊢))
  have r4 := r3.step (.check1 (p := 1) _ (by simp [State.go]))
  have r5 := r4.step (.unlock (p := 1) _ (by simp [State.go, State.remove]))
  have r6 := r5.step (.grantEX (p := 1) _ (by simp [State.go]) (by intro q hq; fin_cases q <;> simp [State.go, State.remove, hh] at hq ⊢))
  have r7 := r6.step (.check2 (p := 1) _ (by simp [State.go]))
  exact ⟨_, r7, by simp [State.go, State.remove], by simp [State.go, State.remove], by simp [State.go, State.remove, hx]⟩

/-- C114 does not hold: two runs write the same file, because the lock file that the first one waited for has been removed. -/
theorem C114_negation_writers : ∃ t : State (Fin 3), Run False fresh t ∧ t.pc 1 = .writing ∧ t.pc 2 = .writing ∧ t.held 1 = .ex ∧ t.held 2 = .ex ∧
    ¬ Undisturbed t := by
  obtain ⟨t, r, hpc, hh, hl, hn, hx, hf⟩ := first_run False
  have r1 := r.step (.openOld (p := 1) _ 0 (by simp [hpc]) hn)
  have r2 := r1.remove (p := 0) (by simp [State.go, hpc]) False.elim
  have r3 := r2.step (.openNew (p := 2) _ (by simp [State.remove, State.go, hpc]) (by simp [State.remove]))
  have r4 := r3.step (.grantSH (p := 1) _ (by simp [State.go, State.remove])
    (by intro q hq; fin_cases q <;> simp [State.go, State.remove, hh] at hq ⊢))
  have r5 := r4.step (.check1 (p := 1) _ (by simp [State.go]))
  have r6 := r5.step (.unlock (p := 1) _ (by simp [State.go, State.remove]))
  have r7 := r6.step (.grantEX (p := 1) _ (by simp [State.go]) (by intro q hq; fin_cases q <;> simp [State.go, State.remove, hh] at hq ⊢))
  have r8 := r7.step (.check2 (p := 1) _ (by simp [State.go]))
  have r9 := r8.step (.grantSH (p := 2) _ (by simp [State.go, State.remove])
    (by intro q hq; fin_cases q <;> simp [State.go, State.remove, hh, hx] at hq ⊢))
  have r10 := r9.step (.check1 (p := 2) _ (by simp [State.go]))
  have r11 := r10.step (.unlock (p := 2) _ (by simp [State.go, State.remove]))
  have r12 := r11.step (.grantEX (p := 2) _ (by simp [State.go])
    (by intro q hq; fin_cases q <;> simp [State.go, State.remove, hh, hx] at hq ⊢))
  have r13 := r12.step (.check2 (p := 2) _ (by simp [State.go]))
  refine ⟨_, r13, by simp [State.go, State.remove], by simp [State.go, State.remove], by simp [State.go, State.remove],
    by simp [State.go, State.remove], fun hu => ?_⟩
  exact (hu.1 1 2 (by simp) (.inl (by simp [State.go, State.remove]))).1 (by simp [State.go, State.remove])

/-- C114 does not hold: a run holds the shared lock and is about to read the file, which another run removes. -/
theorem C114_negation_reader : ∃ t : State (Fin 3), Run False fresh t ∧ t.pc 1 = .reading ∧ t.held 1 = .sh ∧ t.file.present = false ∧
    ¬ Undisturbed t := by
  obtain ⟨t, r, hpc, hh, hl, hn, hx, hf⟩ := first_run False
  have r1 := r.step (.openOld (p := 1) _ 0 (by simp [hpc]) hn)
  have r2 := r1.step (.grantSH (p := 1) _ (by simp [State.go]) (by intro q hq; simp [State.go, hh, hq]))
  have r3 := r2.step (.check1 (p := 1) _ (by simp [State.go]))
  have r4 := r3.remove (p := 0) (by simp [State.go, hpc]) False.elim
  refine ⟨_, r4, by simp [State.go, State.remove, hf], by simp [State.go, State.remove], rfl, fun hu => ?_⟩
  have := hu.2 1 (by simp [State.go, State.remove, hf])
  simp [State.remove] at this

end Verif.CleanUp
