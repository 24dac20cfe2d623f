import Verif.Lemmas.Locking
import Mathlib.Tactic.Ring

/-!
Properties C14-C16 (intermediate-file protocol, `kerncraft/kernel.py:799-863`).
-/

namespace Verif.Locking
variable {ι : Type} [DecidableEq ι]

/-! ## C14 -/

/-- Process `p` has been told that it may write (`lock_intermediate` returned `LOCK_EX`) and has not
given the right back. -/
def MayWrite (s : State ι) (p : ι) : Prop :=
  s.pc p = .writing ∨ s.pc p = .partialWrite ∨ s.pc p = .wrote

/-- Process `p` has been told that it may read (or has downgraded its lock after writing). -/
def MayRead (s : State ι) (p : ι) : Prop := s.pc p = .reading

/-- C14: while one process may write, no other process may read or write. Any number of processes,
any interleaving. -/
theorem C14_writer_is_exclusive (s t : State ι) (l : List (ι × Act)) (hi : Initial s)
    (hr : Run true s l t) (hc : ∀ x ∈ l, x.2 ≠ .crash) (p q : ι) (hp : MayWrite t p) (hq : q ≠ p) :
    ¬ MayWrite t q ∧ ¬ MayRead t q := by
  have h := (SafeRun.of_run hr hc).inv (Inv.initial s hi)
  have hx : t.held p = .ex := by
    rw [h.held]; rcases hp with hp | hp | hp <;> rw [hp] <;> rfl
  have hn := h.excl p hx q hq
  rw [h.held] at hn
  constructor
  · rintro (h | h | h) <;> rw [h] at hn <;> cases hn
  · intro h; rw [MayRead] at h; rw [h] at hn; cases hn

/-- C14: a process that may read sees a completely written file that is newer than its inputs. -/
theorem C14_reader_sees_complete_file (s t : State ι) (l : List (ι × Act)) (hi : Initial s)
    (hr : Run true s l t) (hc : ∀ x ∈ l, x.2 ≠ .crash) (p : ι) (hp : MayRead t p) :
    t.file.present = true ∧ t.file.complete = true ∧ t.inp < t.file.mtime := by
  have h := (SafeRun.of_run hr hc).inv (Inv.initial s hi)
  obtain ⟨h1, h2, _⟩ := h.settled p (by rw [MayRead] at hp; rw [hp]; trivial)
  simp [fresh] at h1
  exact ⟨h1.1, h2, h1.2⟩

/-- C14: once some process may read, nobody ever gets the right to write again (the file the reader
uses is not replaced under it, and freshness is stable). -/
theorem C14_no_writer_beside_reader (s t : State ι) (l : List (ι × Act)) (hi : Initial s)
    (hr : Run true s l t) (hc : ∀ x ∈ l, x.2 ≠ .crash) (p : ι) (hp : MayRead t p) (q : ι) (a : Act)
    (u : State ι) (hst : Step true q a t u) (ha : a ≠ .crash) : ¬ (u.pc q = .writing) ∧
      u.file = t.file := by
  have h := (SafeRun.of_run hr hc).inv (Inv.initial s hi)
  have hset : Settled (t.pc p) := by rw [MayRead] at hp; rw [hp]; trivial
  obtain ⟨h1, h2, h3⟩ := h.settled p hset
  cases hst with
  | write _ hw => exact (h3 q (by rcases hw with hw | hw <;> rw [hw] <;> trivial)).elim
  | finish _ hw => exact (h3 q (by rcases hw with hw | hw <;> rw [hw] <;> trivial)).elim
  | lockFails _ hw => cases hw
  | check2 _ hq => simp [State.go, h1]
  | check1 _ hq => simp [State.go, h1]
  | tick => exact ⟨fun e => h3 q (by show Writer (t.pc q); rw [show t.pc q = .writing from e]; trivial), rfl⟩
  | crash => exact absurd rfl ha
  | _ => simp [State.go]

/-- The reason for the warning in line 831: without working `flock`, two processes may write. -/
theorem C14_broken_without_flock : ∃ (s t : State (Fin 2)) (l : List (Fin 2 × Act)), Initial s ∧
    Run false s l t ∧ (∀ x ∈ l, x.2 ≠ .crash) ∧ MayWrite t 0 ∧ MayWrite t 1 := by
  let s : State (Fin 2) := ⟨fun _ => .idle, fun _ => .none, ⟨false, 0, false⟩, 1, 0⟩
  have h1 := Run.snoc (Run.nil (works := false) s) (Step.openLock (p := 0) s rfl)
  have h2 := Run.snoc h1 (Step.lockFails (p := 0) _ rfl (by simp [State.go]))
  have h3 := Run.snoc h2 (Step.openLock (p := 1) _ (by simp [State.go, s]))
  have h4 := Run.snoc h3 (Step.lockFails (p := 1) _ rfl (by simp [State.go]))
  refine ⟨s, _, _, ⟨fun _ => rfl, fun _ => rfl, by simp [s], by simp [s, fresh]⟩, h4, by simp, ?_, ?_⟩
  · left; simp [State.go]
  · left; simp [State.go]

/-! ## C15 -/

/-- C15: no deadlock: as long as some process is neither done nor dead, some process can take a step
that advances the protocol (not just time). -/
theorem C15_no_deadlock (s t : State ι) (l : List (ι × Act)) (hi : Initial s) (hr : SafeRun s l t)
    (p : ι) (hp : t.pc p ≠ .done ∧ t.pc p ≠ .dead) :
    ∃ q a u, a ≠ .tick ∧ a ≠ .write ∧ a ≠ .crash ∧ Step true q a t u := by
  have h := hr.inv (Inv.initial s hi)
  by_cases hh : ∃ q, t.held q ≠ .none
  · obtain ⟨q, hq⟩ := hh
    obtain ⟨a, u, ha, hc, hst⟩ := holder_can_step h q hq
    exact ⟨q, a, u, ha.1, ha.2, hc, hst⟩
  · have hh : ∀ q, t.held q = .none := by
      intro q; by_contra hq; exact hh ⟨q, hq⟩
    have hSH : canSH t p := fun q _ => by rw [hh q]; decide
    have hEX : canEX t p := fun q _ => hh q
    have hl := hh p
    rw [h.held] at hl
    cases hc : t.pc p <;> rw [hc] at hl hp <;> simp [lockOf] at hl hp
    · exact ⟨p, _, _, by simp, by simp, by simp, .openLock t hc⟩
    · exact ⟨p, _, _, by simp, by simp, by simp, .grantSH t rfl hc hSH⟩
    · exact ⟨p, _, _, by simp, by simp, by simp, .grantEX t hc hEX⟩
    · exact ⟨p, _, _, by simp, by simp, by simp, .grantSH2 t hc hSH⟩

/-- C15: every waiting process can be served: the other processes can release their locks by steps of
their own, after which the waiting process gets its lock. -/
theorem C15_waiting_process_can_proceed [Fintype ι] (s t : State ι) (l : List (ι × Act))
    (hi : Initial s) (hr : SafeRun s l t) (p : ι)
    (hp : t.pc p = .wantSH ∨ t.pc p = .wantEX ∨ t.pc p = .wantSH2) :
    ∃ l' u v a, SafeRun t l' u ∧ (∀ x ∈ l', x.1 ≠ p ∧ x.2 ≠ .crash) ∧ Step true p a u v ∧
      v.held p ≠ .none := by
  have h := hr.inv (Inv.initial s hi)
  obtain ⟨l', u, hr', hl', hall, _, hpc⟩ :=
    drain_list h p (Finset.univ.erase p).toList (by simp)
  have hfree : ∀ q, q ≠ p → u.held q = .none := fun q hq => hall q (by simp [hq])
  rcases hp with hp | hp | hp
  · refine ⟨l', u, _, _, hr', hl', .grantSH u rfl (hpc.trans hp) (fun q hq => ?_), ?_⟩
    · rw [hfree q hq]; decide
    · simp [State.go]
  · exact ⟨l', u, _, _, hr', hl', .grantEX u (hpc.trans hp) hfree, by simp [State.go]⟩
  · refine ⟨l', u, _, _, hr', hl', .grantSH2 u (hpc.trans hp) (fun q hq => ?_), ?_⟩
    · rw [hfree q hq]; decide
    · simp [State.go]

/-- C15: in every run, at most ten protocol steps per process happen; with `C15_no_deadlock` every
schedule that does not only let time pass or writers write ends with all processes done. -/
theorem C15_bounded_protocol_steps [Fintype ι] (s t : State ι) (l : List (ι × Act))
    (hi : Initial s) (hr : SafeRun s l t) :
    l.countP (fun x => x.2 ≠ .tick ∧ x.2 ≠ .write ∧ x.2 ≠ .crash) ≤ 10 * Fintype.card ι := by
  have key : ∀ {t l}, SafeRun s l t →
      l.countP (fun x => x.2 ≠ .tick ∧ x.2 ≠ .write ∧ x.2 ≠ .crash) + ∑ q, rank (t.pc q)
        ≤ ∑ q, rank (s.pc q) := by
    intro t l h
    induction h with
    | nil => simp
    | @snoc t u l p a _ hst _ ih =>
      obtain ⟨ho, hle, hlt⟩ := step_rank hst
      have hsplit : ∀ f : ι → Nat, ∑ q, f q = f p + ∑ q ∈ Finset.univ.erase p, f q :=
        fun f => (Finset.add_sum_erase _ f (Finset.mem_univ p)).symm
      rw [hsplit (fun q => rank (u.pc q))]
      rw [hsplit (fun q => rank (t.pc q))] at ih
      have hrest : ∑ q ∈ Finset.univ.erase p, rank (u.pc q) =
          ∑ q ∈ Finset.univ.erase p, rank (t.pc q) :=
        Finset.sum_congr rfl (fun q hq => by rw [ho q (Finset.ne_of_mem_erase hq)])
      rw [hrest, List.countP_append]
      by_cases hpg : a ≠ .tick ∧ a ≠ .write ∧ a ≠ .crash
      · have := hlt ⟨hpg.1, hpg.2.1⟩ hpg.2.2
        simp only [List.countP_cons, List.countP_nil]
        rw [if_pos (by simpa using hpg)]
        omega
      · simp only [List.countP_cons, List.countP_nil]
        rw [if_neg (by simpa using hpg)]
        omega
  have h1 := key hr
  have h2 : ∑ q, rank (s.pc q) = 10 * Fintype.card ι := by
    simp [hi.pc, rank, Finset.card_univ, mul_comm]
  omega

/-! ## C16 -/

/-- C16 full claim: with crashes anywhere, readers only ever see complete files. -/
def C16_claim : Prop :=
  ∀ (s t : State (Fin 2)) (l : List (Fin 2 × Act)), Initial s → Run true s l t →
    ∀ p, MayRead t p → t.file.complete = true

/-- C16 is false: a partially written file is newer than its inputs and is used by the next process. -/
theorem C16_negation : ¬ C16_claim := by
  intro hclaim
  let s : State (Fin 2) := ⟨fun _ => .idle, fun _ => .none, ⟨false, 0, false⟩, 1, 0⟩
  have h1 := Run.snoc (Run.nil (works := true) s) (Step.openLock (p := 0) s rfl)
  have h2 := Run.snoc h1 (Step.grantSH (p := 0) _ rfl (by simp [State.go])
    (by intro q hq; simp [State.go, s]))
  have h3 := Run.snoc h2 (Step.check1 (p := 0) _ (by simp [State.go]))
  have h4 := Run.snoc h3 (Step.unlock (p := 0) _ (by simp [State.go, s, fresh]))
  have h5 := Run.snoc h4 (Step.grantEX (p := 0) _ (by simp [State.go])
    (by intro q hq; simp [State.go, s]))
  have h6 := Run.snoc h5 (Step.check2 (p := 0) _ (by simp [State.go]))
  have h7 := Run.snoc h6 (Step.write (p := 0) _ (Or.inl (by simp [State.go, s, fresh])))
  have h8 := Run.snoc h7 (Step.crash (p := 0) _)
  have h9 := Run.snoc h8 (Step.openLock (p := 1) _ (by simp [State.go, s]))
  have h10 := Run.snoc h9 (Step.grantSH (p := 1) _ rfl (by simp [State.go])
    (by intro q hq; have : q = 0 := by omega
        subst this; simp [State.go]))
  have h11 := Run.snoc h10 (Step.check1 (p := 1) _ (by simp [State.go]))
  have := hclaim s _ _ ⟨fun _ => rfl, fun _ => rfl, by simp [s], by simp [s, fresh]⟩ h11 1
    (by simp [MayRead, State.go, s, fresh])
  simp [State.go] at this

/-- C16 partial: crashes at every other point are harmless: if no process dies between its first and
its last write to the file, readers only see complete files newer than their inputs, and the writer
stays exclusive. Missing: death in the middle of the write, for which the claim is false. -/
theorem C16_crash_outside_write_partial (s t : State ι) (l : List (ι × Act)) (hi : Initial s)
    (hr : SafeRun s l t) (p : ι) :
    (MayRead t p → t.file.present = true ∧ t.file.complete = true ∧ t.inp < t.file.mtime) ∧
    (MayWrite t p → ∀ q, q ≠ p → ¬ MayWrite t q ∧ ¬ MayRead t q) := by
  have h := hr.inv (Inv.initial s hi)
  constructor
  · intro hp
    obtain ⟨h1, h2, _⟩ := h.settled p (by rw [MayRead] at hp; rw [hp]; trivial)
    simp [fresh] at h1
    exact ⟨h1.1, h2, h1.2⟩
  · intro hp q hq
    have hx : t.held p = .ex := by
      rw [h.held]; rcases hp with hp | hp | hp <;> rw [hp] <;> rfl
    have hn := h.excl p hx q hq
    rw [h.held] at hn
    constructor
    · rintro (h | h | h) <;> rw [h] at hn <;> cases hn
    · intro h; rw [MayRead] at h; rw [h] at hn; cases hn

/-- C16 partial: a crashed writer never blocks the others: with crashes anywhere outside the write,
the protocol still cannot deadlock (its `flock` is released by the operating system). -/
theorem C16_crash_does_not_block_partial (s t : State ι) (l : List (ι × Act)) (hi : Initial s)
    (hr : SafeRun s l t) (p : ι) (hp : t.pc p ≠ .done ∧ t.pc p ≠ .dead) :
    ∃ q a u, a ≠ .tick ∧ a ≠ .write ∧ a ≠ .crash ∧ Step true q a t u :=
  C15_no_deadlock s t l hi hr p hp

/-- Non-trivial instance for C14 and C15: process 0 writes, process 1 waited meanwhile, gets EX, finds
the file fresh, and both end up reading. -/
example : ∃ (s t : State (Fin 2)) (l : List (Fin 2 × Act)), Initial s ∧ Run true s l t ∧
    (∀ x ∈ l, x.2 ≠ .crash) ∧ MayRead t 0 ∧ MayRead t 1 := by
  let s : State (Fin 2) := ⟨fun _ => .idle, fun _ => .none, ⟨false, 0, false⟩, 1, 0⟩
  have h1 := Run.snoc (Run.nil (works := true) s) (Step.openLock (p := 0) s rfl)
  have h2 := Run.snoc h1 (Step.grantSH (p := 0) _ rfl (by simp [State.go])
    (by intro q hq; simp [State.go, s]))
  have h3 := Run.snoc h2 (Step.check1 (p := 0) _ (by simp [State.go]))
  have h3a := Run.snoc h3 (Step.openLock (p := 1) _ (by simp [State.go, s]))
  have h3b := Run.snoc h3a (Step.grantSH (p := 1) _ rfl (by simp [State.go])
    (by intro q hq; have : q = 0 := by omega
        subst this; simp [State.go]))
  have h3c := Run.snoc h3b (Step.check1 (p := 1) _ (by simp [State.go]))
  have h3d := Run.snoc h3c (Step.unlock (p := 1) _ (by simp [State.go, s, fresh]))
  have h4 := Run.snoc h3d (Step.unlock (p := 0) _ (by simp [State.go, s, fresh]))
  have h5 := Run.snoc h4 (Step.grantEX (p := 0) _ (by simp [State.go])
    (by intro q hq; have : q = 1 := by omega
        subst this; simp [State.go]))
  have h6 := Run.snoc h5 (Step.check2 (p := 0) _ (by simp [State.go]))
  have h7 := Run.snoc h6 (Step.write (p := 0) _ (Or.inl (by simp [State.go, s, fresh])))
  have h8 := Run.snoc h7 (Step.finish (p := 0) _ (Or.inr (by simp [State.go])))
  have h9 := Run.snoc h8 (Step.drop (p := 0) _ (Or.inr (by simp [State.go])))
  have h10 := Run.snoc h9 (Step.grantEX (p := 1) _ (by simp [State.go])
    (by intro q hq; have : q = 0 := by omega
        subst this; simp [State.go]))
  have h11 := Run.snoc h10 (Step.check2 (p := 1) _ (by simp [State.go]))
  have h12 := Run.snoc h11 (Step.drop (p := 1) _ (Or.inl (by simp [State.go, s, fresh])))
  have h13 := Run.snoc h12 (Step.grantSH2 (p := 1) _ (by simp [State.go])
    (by intro q hq; have : q = 0 := by omega
        subst this; simp [State.go]))
  have h14 := Run.snoc h13 (Step.grantSH2 (p := 0) _ (by simp [State.go])
    (by intro q hq; have : q = 1 := by omega
        subst this; simp [State.go]))
  refine ⟨s, _, _, ⟨fun _ => rfl, fun _ => rfl, by simp [s], by simp [s, fresh]⟩, h14, by simp, ?_, ?_⟩
  · simp [MayRead, State.go]
  · simp [MayRead, State.go]

end Verif.Locking
