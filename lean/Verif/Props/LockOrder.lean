import Verif.Lemmas.LockOrder

/-!
C113: runs of kerncraft at the same time do not block each other.
-/

namespace Verif.LockOrder

variable {ι : Type} [DecidableEq ι]

/-- C113: as long as a process has not ended, some process can go on without any of them dying. -/
theorem C113_no_deadlock (tasks : ι → List Task) (n : Nat) (t : ι → Proc File) (h : Run n (fun p => start (kerncraft (tasks p))) t)
    (p : ι) (hp : (t p).prog ≠ .done) : ∃ q Q, Move (canSH t q) (canEX t q) (t q) Q := by
  by_contra hno
  push Not at hno
  have hB : ∀ f, rank f ≤ 4 := by intro f; cases f <;> simp [rank]
  exact hp (no_stuck rank 4 hB t (run_keeps rank n _ t h (good_kerncraft tasks)) hno p)

/-- C113: all runs end, whatever the order of steps and the results of the checks. -/
theorem C113_ends [Fintype ι] (tasks : ι → List Task) : ∃ N, ∀ n t, Run n (fun p => start (kerncraft (tasks p))) t → n ≤ N :=
  ⟨_, fun n t h => le_trans (Nat.le_add_right _ _) (run_left n _ t h)⟩

/-- C113: while a process has an exclusive lock on a file, no other process has a lock on it. -/
theorem C113_exclusive (tasks : ι → List Task) (n : Nat) (t : ι → Proc File) (h : Run n (fun p => start (kerncraft (tasks p))) t)
    (p q : ι) (hpq : p ≠ q) (f : File) (hx : (t p).held f = .ex ∨ (t p).current f = .ex) : (t q).held f = .none ∧ (t q).current f = .none := by
  have := run_exclusive n _ t h (fun p f => by
    rintro (ha | ha)
    · exact ha rfl
    · refine ha ?_
      generalize kerncraft (tasks p) = P
      cases P <;> rfl) p q hpq f hx
  rw [HasAny, not_or] at this
  push Not at this
  exact this

/-- Two runs that analyse the same kernel: the first one has the analysis to itself and can go on, the second one waits for it. -/
example : ∃ t : Bool → Proc File, Run 6 (fun _ => start (kerncraft [.incore 0 0 0 0 false])) t ∧ (t false).held (.analysis 0) = .ex ∧
    (∃ c u, (t true).prog = .lock (.analysis 0) c u ∧ (t true).stage = .wantEX) := by
  let P := kerncraft [.incore 0 0 0 0 false]
  let s0 : Bool → Proc File := fun _ => start P
  obtain ⟨c, u, hP⟩ : ∃ c u, P = .lock (.analysis 0) c u := ⟨_, _, rfl⟩
  have e0 : s0 = fun b => bif b then ⟨.lock (.analysis 0) c u, fun _ => .none, .idle⟩ else ⟨.lock (.analysis 0) c u, fun _ => .none, .idle⟩ := by
    funext b
    show start P = _
    rw [hP]
    cases b <;> rfl
  let st : Proc File → Proc File → Bool → Proc File := fun a b x => bif x then b else a
  have hupd0 : ∀ a a' b : Proc File, Function.update (st a b) false a' = st a' b := by
    intro a a' b; funext x; cases x <;> simp [st]
  have hupd1 : ∀ a b b' : Proc File, Function.update (st a b) true b' = st a b' := by
    intro a b b'; funext x; cases x <;> simp [st]
  let at_ : Stage → Proc File := fun g => ⟨.lock (.analysis 0) c u, fun _ => .none, g⟩
  have r0 : Run 0 s0 (st (at_ .idle) (at_ .idle)) := by rw [e0]; exact Run.nil _
  have r1 : Run 1 s0 (st (at_ .gotSH) (at_ .idle)) := by
    rw [← hupd0 (at_ .idle)]
    refine r0.snoc (.move _ _ _ (.grantSH _ _ _ _ ⟨?_, ?_⟩)) <;> intro q <;> cases q <;> simp [st, at_, Proc.current]
  have r2 : Run 2 s0 (st (at_ .gotSH) (at_ .gotSH)) := by
    rw [← hupd1 _ (at_ .idle)]
    refine r1.snoc (.move _ _ _ (.grantSH _ _ _ _ ⟨?_, ?_⟩)) <;> intro q <;> cases q <;> simp [st, at_, Proc.current]
  have r3 : Run 3 s0 (st (at_ .gotSH) (at_ .wantEX)) := by
    rw [← hupd1 _ (at_ .gotSH)]
    exact r2.snoc (.move _ _ _ (.stale _ _ _ _))
  have r4 : Run 4 s0 (st (at_ .wantEX) (at_ .wantEX)) := by
    rw [← hupd0 (at_ .gotSH)]
    exact r3.snoc (.move _ _ _ (.stale _ _ _ _))
  have r5 : Run 5 s0 (st (at_ .gotEX) (at_ .wantEX)) := by
    rw [← hupd0 (at_ .wantEX)]
    refine r4.snoc (.move _ _ _ (.grantEX _ _ _ _ ⟨?_, ?_⟩)) <;> intro q <;> cases q <;> simp [st, at_, Proc.current]
  have r6 : Run 6 s0 (st ⟨u, Function.update (fun _ => .none) (.analysis 0) .ex, .idle⟩ (at_ .wantEX)) := by
    rw [← hupd0 (at_ .gotEX)]
    exact r5.snoc (.move _ _ _ (.staleNow _ _ _ _))
  exact ⟨_, r6, by simp [st], c, u, rfl, rfl⟩

/-- The order matters: two programs that take two locks in different orders can block each other. -/
example : ∃ t : Bool → Proc Bool, Run 8 (fun b => start (.lock b .exit (.lock (!b) .exit .exit))) t ∧ (∀ b, (t b).prog ≠ .done) ∧
    ∀ q Q, ¬ Move (canSH t q) (canEX t q) (t q) Q := by
  let st : Proc Bool → Proc Bool → Bool → Proc Bool := fun a b x => bif x then b else a
  have hupd0 : ∀ a a' b : Proc Bool, Function.update (st a b) false a' = st a' b := by
    intro a a' b; funext x; cases x <;> simp [st]
  have hupd1 : ∀ a b b' : Proc Bool, Function.update (st a b) true b' = st a b' := by
    intro a b b'; funext x; cases x <;> simp [st]
  let a0 : Stage → Proc Bool := fun g => ⟨.lock false .exit (.lock true .exit .exit), fun _ => .none, g⟩
  let b0 : Stage → Proc Bool := fun g => ⟨.lock true .exit (.lock false .exit .exit), fun _ => .none, g⟩
  let a1 : Proc Bool := ⟨.lock true .exit .exit, Function.update (fun _ => .none) false .ex, .idle⟩
  let b1 : Proc Bool := ⟨.lock false .exit .exit, Function.update (fun _ => .none) true .ex, .idle⟩
  let s0 : Bool → Proc Bool := fun b => start (.lock b .exit (.lock (!b) .exit .exit))
  have r0 : Run 0 s0 (st (a0 .idle) (b0 .idle)) := by
    have : s0 = st (a0 .idle) (b0 .idle) := by funext b; cases b <;> rfl
    rw [this]
    exact Run.nil _
  have r1 : Run 1 s0 (st (a0 .gotSH) (b0 .idle)) := by
    rw [← hupd0 (a0 .idle)]
    refine r0.snoc (.move _ _ _ (.grantSH _ _ _ _ ⟨?_, ?_⟩)) <;> intro q <;> cases q <;> simp [st, a0, b0, Proc.current]
  have r2 : Run 2 s0 (st (a0 .wantEX) (b0 .idle)) := by
    rw [← hupd0 (a0 .gotSH)]
    exact r1.snoc (.move _ _ _ (.stale _ _ _ _))
  have r3 : Run 3 s0 (st (a0 .gotEX) (b0 .idle)) := by
    rw [← hupd0 (a0 .wantEX)]
    refine r2.snoc (.move _ _ _ (.grantEX _ _ _ _ ⟨?_, ?_⟩)) <;> intro q <;> cases q <;> simp [st, a0, b0, Proc.current]
  have r4 : Run 4 s0 (st a1 (b0 .idle)) := by
    rw [← hupd0 (a0 .gotEX)]
    exact r3.snoc (.move _ _ _ (.staleNow _ _ _ _))
  have r5 : Run 5 s0 (st a1 (b0 .gotSH)) := by
    rw [← hupd1 _ (b0 .idle)]
    refine r4.snoc (.move _ _ _ (.grantSH _ _ _ _ ⟨?_, ?_⟩)) <;> intro q <;> cases q <;> simp [st, a1, b0, Proc.current]
  have r6 : Run 6 s0 (st a1 (b0 .wantEX)) := by
    rw [← hupd1 _ (b0 .gotSH)]
    exact r5.snoc (.move _ _ _ (.stale _ _ _ _))
  have r7 : Run 7 s0 (st a1 (b0 .gotEX)) := by
    rw [← hupd1 _ (b0 .wantEX)]
    refine r6.snoc (.move _ _ _ (.grantEX _ _ _ _ ⟨?_, ?_⟩)) <;> intro q <;> cases q <;> simp [st, a1, b0, Proc.current]
  have r8 : Run 8 s0 (st a1 b1) := by
    rw [← hupd1 _ (b0 .gotEX)]
    exact r7.snoc (.move _ _ _ (.staleNow _ _ _ _))
  refine ⟨st a1 b1, r8, ?_, ?_⟩
  · intro b
    cases b <;> simp [st, a1, b1]
  · intro q Q hm
    cases q with
    | false =>
      generalize hP : st a1 b1 false = P at hm
      cases hm <;> simp [st, a1] at hP
      rename_i hc
      obtain ⟨⟨rfl, rfl, rfl⟩, -⟩ := hP
      exact hc.1 true (by simp [st, b1])
    | true =>
      generalize hP : st a1 b1 true = P at hm
      cases hm <;> simp [st, b1] at hP
      rename_i hc
      obtain ⟨⟨rfl, rfl, rfl⟩, -⟩ := hP
      exact hc.1 false (by simp [st, a1])

end Verif.LockOrder
