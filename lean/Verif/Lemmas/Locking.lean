import Verif.Model.Locking
import Mathlib.Data.Fintype.Card
import Mathlib.Algebra.BigOperators.Group.Finset.Basic
import Mathlib.Algebra.Order.BigOperators.Group.Finset

namespace Verif.Locking
variable {ι : Type} [DecidableEq ι]

/-- Lock mode implied by the control state (working `flock`). -/
def lockOf : PC → Mode
  | .gotSH | .stale | .reading => .sh
  | .gotEX | .conv | .writing | .partialWrite | .wrote => .ex
  | _ => .none

/-- The process knows that the file is complete and fresh. -/
def Settled : PC → Prop
  | .reading | .conv | .wrote | .wantSH2 => True
  | _ => False

/-- The process is allowed to modify the file. -/
def Writer : PC → Prop
  | .writing | .partialWrite => True
  | _ => False

/-- Invariant of all runs without a crash in the middle of a write. -/
structure Inv (s : State ι) : Prop where
  held : ∀ p, s.held p = lockOf (s.pc p)
  excl : ∀ p, s.held p = .ex → ∀ q, q ≠ p → s.held q = .none
  settled : ∀ p, Settled (s.pc p) → fresh s.file s.inp = true ∧ s.file.complete = true ∧
    ∀ q, ¬ Writer (s.pc q)
  quiet : (∀ p, s.pc p ≠ .partialWrite) → fresh s.file s.inp = true → s.file.complete = true
  past : s.inp < s.now

omit [DecidableEq ι] in
theorem Inv.initial (s : State ι) (h : Initial s) : Inv s where
  held p := by rw [h.held, h.pc]; rfl
  excl p hp := by rw [h.held] at hp; cases hp
  settled p hp := by rw [h.pc] at hp; exact hp.elim
  quiet _ := h.file
  past := h.past

theorem go_pc (s : State ι) (p q : ι) (c : PC) (m : Mode) :
    (s.go p c m).pc q = if q = p then c else s.pc q := by
  simp [State.go, Function.update_apply]

theorem go_held (s : State ι) (p q : ι) (c : PC) (m : Mode) :
    (s.go p c m).held q = if q = p then m else s.held q := by
  simp [State.go, Function.update_apply]

@[simp] theorem go_file (s : State ι) (p : ι) (c : PC) (m : Mode) : (s.go p c m).file = s.file := rfl
@[simp] theorem go_inp (s : State ι) (p : ι) (c : PC) (m : Mode) : (s.go p c m).inp = s.inp := rfl
@[simp] theorem go_now (s : State ι) (p : ι) (c : PC) (m : Mode) : (s.go p c m).now = s.now := rfl

/-- Moving a process without touching the file. -/
theorem Inv.go {s : State ι} (h : Inv s) (p : ι) (c : PC) (m : Mode) (hm : m = lockOf c)
    (hex : m = .ex → ∀ q, q ≠ p → s.held q = .none)
    (hsh : m = .sh → ∀ q, q ≠ p → s.held q ≠ .ex)
    (hset : Settled c → fresh s.file s.inp = true ∧ s.file.complete = true ∧
      ∀ q, q ≠ p → ¬ Writer (s.pc q))
    (hwr : Writer c → ∀ q, q ≠ p → ¬ Settled (s.pc q))
    (hcr : s.pc p = .partialWrite → c = .partialWrite) : Inv (s.go p c m) where
  held q := by
    rw [go_pc, go_held]
    split
    · exact hm
    · exact h.held q
  excl q hq r hr := by
    rw [go_held] at hq ⊢
    split at hq
    · rename_i e; subst e
      rw [if_neg hr]
      exact hex hq r hr
    · rename_i e
      split
      · rename_i e2; subst e2
        cases m with
        | none => rfl
        | sh => exact absurd hq (hsh rfl q e)
        | ex => have := hex rfl q e; rw [this] at hq; cases hq
      · exact h.excl q hq r hr
  settled q hq := by
    rw [go_pc] at hq
    simp only [go_file, go_inp]
    split at hq
    · rename_i e; subst e
      obtain ⟨h1, h2, h3⟩ := hset hq
      refine ⟨h1, h2, fun r => ?_⟩
      rw [go_pc]
      split
      · intro hw; cases c <;> simp [Settled, Writer] at hq hw
      · rename_i e; exact h3 r e
    · rename_i e
      obtain ⟨h1, h2, h3⟩ := h.settled q hq
      refine ⟨h1, h2, fun r => ?_⟩
      rw [go_pc]
      split
      · intro hw; exact hwr hw q e hq
      · exact h3 r
  quiet hq := by
    apply h.quiet
    intro q hc
    apply hq q
    rw [go_pc]
    split
    · rename_i e; subst e; exact hcr hc
    · exact hc
  past := h.past

omit [DecidableEq ι] in
theorem Inv.not_writer_of_sh {s : State ι} (h : Inv s) (p : ι) (hp : s.held p ≠ .none) (q : ι)
    (hq : q ≠ p) : ¬ Writer (s.pc q) := by
  intro hw
  have hx : s.held q = .ex := by
    rw [h.held]; cases hc : s.pc q <;> simp [Writer, hc, lockOf] at hw ⊢
  exact hp (h.excl q hx p (Ne.symm hq))

theorem Inv.step {s t : State ι} {p : ι} {a : Act} (h : Inv s) (hs : Step true p a s t)
    (hc : a = .crash → s.pc p ≠ .partialWrite) : Inv t := by
  cases hs with
  | openLock _ hp =>
    exact h.go p _ _ rfl (by simp) (by simp) (fun x => x.elim) (fun x => x.elim) (by simp [hp])
  | grantSH _ _ hp hcan =>
    exact h.go p _ _ rfl (by simp) (fun _ => hcan) (fun x => x.elim) (fun x => x.elim) (by simp [hp])
  | lockFails _ hw => cases hw
  | check1 _ hp =>
    have hsh : s.held p = .sh := by rw [h.held, hp]; rfl
    have hne : s.held p ≠ .none := by rw [hsh]; decide
    have hnw : ∀ q, q ≠ p → ¬ Writer (s.pc q) := h.not_writer_of_sh p hne
    refine h.go p _ _ ?_ (by simp) ?_ ?_ ?_ (by simp [hp])
    · split <;> rfl
    · intro _ q hq hx
      have := h.excl q hx p (Ne.symm hq)
      exact hne this
    · intro hset
      split at hset
      · rename_i hf
        refine ⟨hf, h.quiet ?_ hf, hnw⟩
        intro q hq
        by_cases e : q = p
        · subst e; rw [hp] at hq; cases hq
        · exact hnw q e (by rw [hq]; trivial)
      · exact hset.elim
    · intro hw; split at hw <;> exact hw.elim
  | unlock _ hp =>
    exact h.go p _ _ rfl (by simp) (by simp) (fun x => x.elim) (fun x => x.elim) (by simp [hp])
  | grantEX _ hp hcan =>
    exact h.go p _ _ rfl (fun _ => hcan) (by simp) (fun x => x.elim) (fun x => x.elim) (by simp [hp])
  | check2 _ hp =>
    have hx : s.held p = .ex := by rw [h.held, hp]; rfl
    have hne : s.held p ≠ .none := by rw [hx]; decide
    have hnw : ∀ q, q ≠ p → ¬ Writer (s.pc q) := h.not_writer_of_sh p hne
    refine h.go p _ _ ?_ (fun _ => h.excl p hx) (by simp) ?_ ?_ (by simp [hp])
    · split <;> rfl
    · intro hset
      split at hset
      · rename_i hf
        refine ⟨hf, h.quiet ?_ hf, hnw⟩
        intro q hq
        by_cases e : q = p
        · subst e; rw [hp] at hq; cases hq
        · exact hnw q e (by rw [hq]; trivial)
      · exact hset.elim
    · intro hw q _ hset
      split at hw
      · exact hw.elim
      · rename_i hf
        exact hf (h.settled q hset).1
  | write _ hp =>
    have hw : Writer (s.pc p) := by rcases hp with hp | hp <;> rw [hp] <;> trivial
    have hx : s.held p = .ex := by rw [h.held]; rcases hp with hp | hp <;> rw [hp] <;> rfl
    have hns : ∀ q, ¬ Settled (s.pc q) := fun q hq => (h.settled q hq).2.2 p hw
    have hg : Inv (s.go p .partialWrite (s.held p)) :=
      h.go p _ _ hx (fun _ => h.excl p hx) (by simp [hx]) (fun x => x.elim) (fun _ q _ => hns q)
        (fun _ => rfl)
    refine ⟨hg.held, hg.excl, ?_, ?_, hg.past⟩
    · intro q hq
      have hq' : Settled ((s.go p .partialWrite (s.held p)).pc q) := hq
      rw [go_pc] at hq'
      split at hq'
      · exact hq'.elim
      · exact (hns q hq').elim
    · intro hq
      have := hq p
      exact absurd (by simp [State.go]) this
  | finish _ hp =>
    have hw : Writer (s.pc p) := by rcases hp with hp | hp <;> rw [hp] <;> trivial
    have hx : s.held p = .ex := by rw [h.held]; rcases hp with hp | hp <;> rw [hp] <;> rfl
    have hne : s.held p ≠ .none := by rw [hx]; decide
    have hnw : ∀ q, q ≠ p → ¬ Writer (s.pc q) := h.not_writer_of_sh p hne
    have hf : fresh ⟨true, s.now, true⟩ s.inp = true := by simp [fresh, h.past]
    refine ⟨?_, ?_, ?_, ?_, h.past⟩
    · intro q
      show (s.go p .wrote (s.held p)).held q = lockOf ((s.go p .wrote (s.held p)).pc q)
      rw [go_pc, go_held]
      split
      · exact hx
      · exact h.held q
    · intro q hq r hr
      have hq' : (s.go p .wrote (s.held p)).held q = .ex := hq
      show (s.go p .wrote (s.held p)).held r = .none
      rw [go_held] at hq' ⊢
      split at hq'
      · rename_i e; subst e
        rw [if_neg hr]
        exact h.excl q hq' r hr
      · rename_i e
        split
        · rename_i e2; subst e2; exact h.excl q hq' r hr
        · exact h.excl q hq' r hr
    · intro q _
      refine ⟨hf, rfl, fun r => ?_⟩
      show ¬ Writer ((s.go p .wrote (s.held p)).pc r)
      rw [go_pc]
      split
      · intro x; exact x.elim
      · rename_i e; exact hnw r e
    · intro _ _; rfl
  | drop _ hp =>
    have hset : Settled (s.pc p) := by rcases hp with hp | hp <;> rw [hp] <;> trivial
    obtain ⟨h1, h2, h3⟩ := h.settled p hset
    exact h.go p _ _ rfl (by simp) (by simp) (fun _ => ⟨h1, h2, fun q _ => h3 q⟩) (fun x => x.elim)
      (by rcases hp with hp | hp <;> simp [hp])
  | grantSH2 _ hp hcan =>
    have hset : Settled (s.pc p) := by rw [hp]; trivial
    obtain ⟨h1, h2, h3⟩ := h.settled p hset
    exact h.go p _ _ rfl (by simp) (fun _ => hcan) (fun _ => ⟨h1, h2, fun q _ => h3 q⟩)
      (fun x => x.elim) (by simp [hp])
  | close _ hp =>
    exact h.go p _ _ rfl (by simp) (by simp) (fun x => x.elim) (fun x => x.elim)
      (by rcases hp with hp | hp <;> simp [hp])
  | tick =>
    exact ⟨h.held, h.excl, h.settled, h.quiet, Nat.lt_succ_of_lt h.past⟩
  | crash =>
    exact h.go p _ _ rfl (by simp) (by simp) (fun x => x.elim) (fun x => x.elim)
      (fun hp => absurd hp (hc rfl))

/-- A run in which no process dies in the middle of writing the file. -/
inductive SafeRun : State ι → List (ι × Act) → State ι → Prop
  | nil (s) : SafeRun s [] s
  | snoc {s t u l p a} : SafeRun s l t → Step true p a t u → (a = .crash → t.pc p ≠ .partialWrite) →
      SafeRun s (l ++ [(p, a)]) u

theorem SafeRun.inv {s t : State ι} {l} (h : SafeRun s l t) (hs : Inv s) : Inv t := by
  induction h with
  | nil => exact hs
  | snoc _ hst hc ih => exact ih.step hst hc

theorem SafeRun.of_run {s t : State ι} {l} (h : Run true s l t) (hc : ∀ x ∈ l, x.2 ≠ .crash) :
    SafeRun s l t := by
  induction h with
  | nil => exact .nil _
  | @snoc t u l p a _ hst ih =>
    refine .snoc (ih (fun x hx => hc x (by simp [hx]))) hst (fun e => ?_)
    exact absurd e (hc (p, a) (by simp))

/-- Remaining number of protocol steps of a process. -/
def rank : PC → Nat
  | .idle => 10
  | .wantSH => 9
  | .gotSH => 8
  | .stale => 7
  | .wantEX => 6
  | .gotEX => 5
  | .writing => 4
  | .partialWrite => 4
  | .wrote => 3
  | .conv => 3
  | .wantSH2 => 2
  | .reading => 1
  | .done => 0
  | .dead => 0

/-- Actions that advance the protocol (everything but time and repeated writes). -/
def Progress (a : Act) : Prop := a ≠ .tick ∧ a ≠ .write

theorem step_rank {s t : State ι} {p : ι} {a : Act} (hs : Step true p a s t) :
    (∀ q, q ≠ p → t.pc q = s.pc q) ∧ rank (t.pc p) ≤ rank (s.pc p) ∧
      (Progress a → a ≠ .crash → rank (t.pc p) < rank (s.pc p)) := by
  cases hs with
  | tick => exact ⟨fun _ _ => rfl, Nat.le_refl _, fun h => absurd rfl h.1⟩
  | write _ hp =>
    refine ⟨fun q hq => by simp [State.go, hq], ?_, fun h => absurd rfl h.2⟩
    rcases hp with hp | hp <;> simp [State.go, hp, rank]
  | openLock _ hp => exact ⟨fun q hq => by simp [State.go, hq], by simp [State.go, hp, rank],
      fun _ _ => by simp [State.go, hp, rank]⟩
  | grantSH _ _ hp => exact ⟨fun q hq => by simp [State.go, hq], by simp [State.go, hp, rank],
      fun _ _ => by simp [State.go, hp, rank]⟩
  | lockFails _ hw => cases hw
  | check1 _ hp =>
    refine ⟨fun q hq => by simp [State.go, hq], ?_, fun _ _ => ?_⟩ <;>
      simp only [State.go, Function.update_self, hp] <;> split <;> decide
  | unlock _ hp => exact ⟨fun q hq => by simp [State.go, hq], by simp [State.go, hp, rank],
      fun _ _ => by simp [State.go, hp, rank]⟩
  | grantEX _ hp => exact ⟨fun q hq => by simp [State.go, hq], by simp [State.go, hp, rank],
      fun _ _ => by simp [State.go, hp, rank]⟩
  | check2 _ hp =>
    refine ⟨fun q hq => by simp [State.go, hq], ?_, fun _ _ => ?_⟩ <;>
      simp only [State.go, Function.update_self, hp] <;> split <;> decide
  | finish _ hp =>
    refine ⟨fun q hq => by simp [State.go, hq], ?_, fun _ _ => ?_⟩ <;>
      rcases hp with hp | hp <;> simp [State.go, hp, rank]
  | drop _ hp =>
    refine ⟨fun q hq => by simp [State.go, hq], ?_, fun _ _ => ?_⟩ <;>
      rcases hp with hp | hp <;> simp [State.go, hp, rank]
  | grantSH2 _ hp => exact ⟨fun q hq => by simp [State.go, hq], by simp [State.go, hp, rank],
      fun _ _ => by simp [State.go, hp, rank]⟩
  | close _ hp =>
    refine ⟨fun q hq => by simp [State.go, hq], ?_, fun _ _ => ?_⟩ <;>
      rcases hp with hp | hp <;> simp [State.go, hp, rank]
  | crash => exact ⟨fun q hq => by simp [State.go, hq], by simp [State.go, rank],
      fun _ h => absurd rfl h⟩

/-- A lock holder can always take a step of its own towards releasing its lock. -/
theorem holder_can_step {s : State ι} (h : Inv s) (p : ι) (hp : s.held p ≠ .none) :
    ∃ a t, Progress a ∧ a ≠ .crash ∧ Step true p a s t := by
  rw [h.held] at hp
  cases hc : s.pc p <;> rw [hc] at hp <;> simp [lockOf] at hp
  · exact ⟨_, _, by simp [Progress], by simp, .check1 s hc⟩
  · exact ⟨_, _, by simp [Progress], by simp, .unlock s hc⟩
  · exact ⟨_, _, by simp [Progress], by simp, .check2 s hc⟩
  · exact ⟨_, _, by simp [Progress], by simp, .drop s (Or.inl hc)⟩
  · exact ⟨_, _, by simp [Progress], by simp, .finish s (Or.inl hc)⟩
  · exact ⟨_, _, by simp [Progress], by simp, .finish s (Or.inr hc)⟩
  · exact ⟨_, _, by simp [Progress], by simp, .close s (Or.inr hc)⟩
  · exact ⟨_, _, by simp [Progress], by simp, .close s (Or.inl hc)⟩

theorem SafeRun.trans {s t u : State ι} {l l'} (h : SafeRun s l t) (h' : SafeRun t l' u) :
    SafeRun s (l ++ l') u := by
  induction h' with
  | nil => simpa using h
  | snoc _ hst hc ih => rw [← List.append_assoc]; exact .snoc ih hst hc

theorem SafeRun.single {s t : State ι} {p a} (h : Step true p a s t) (hc : a ≠ .crash) :
    SafeRun s [(p, a)] t := by
  have := SafeRun.snoc (SafeRun.nil s) h (fun e => absurd e hc)
  simpa using this

theorem step_others {s t : State ι} {p q : ι} {a : Act} (hs : Step true p a s t) (hq : q ≠ p) :
    t.pc q = s.pc q ∧ t.held q = s.held q := by
  cases hs <;> simp [State.go, hq]

/-- A lock holder can release its lock by steps of its own. -/
theorem drain {s : State ι} (h : Inv s) (q : ι) :
    ∃ l t, SafeRun s l t ∧ (∀ x ∈ l, x.1 = q ∧ x.2 ≠ .crash) ∧ t.held q = .none ∧
      ∀ r, r ≠ q → t.pc r = s.pc r ∧ t.held r = s.held r := by
  generalize hn : rank (s.pc q) = n
  induction n using Nat.strong_induction_on generalizing s with
  | _ n ih =>
    by_cases hq : s.held q = .none
    · exact ⟨[], s, .nil s, by simp, hq, fun _ _ => ⟨rfl, rfl⟩⟩
    · obtain ⟨a, t, ha, hc, hst⟩ := holder_can_step h q hq
      obtain ⟨_, _, hlt⟩ := step_rank hst
      have hlt := hlt ha hc
      obtain ⟨l, u, hr, hl, hu, ho⟩ := ih (rank (t.pc q)) (hn ▸ hlt) (h.step hst (fun e => absurd e hc)) rfl
      refine ⟨[(q, a)] ++ l, u, (SafeRun.single hst hc).trans hr, ?_, hu, ?_⟩
      · intro x hx
        simp at hx
        rcases hx with rfl | hx
        · exact ⟨rfl, hc⟩
        · exact hl x hx
      · intro r hr'
        obtain ⟨h1, h2⟩ := ho r hr'
        obtain ⟨h3, h4⟩ := step_others hst hr'
        exact ⟨h1.trans h3, h2.trans h4⟩

/-- All processes of a list can release their locks without process `p` moving. -/
theorem drain_list {s : State ι} (h : Inv s) (p : ι) (qs : List ι) (hp : p ∉ qs) :
    ∃ l t, SafeRun s l t ∧ (∀ x ∈ l, x.1 ≠ p ∧ x.2 ≠ .crash) ∧ (∀ q ∈ qs, t.held q = .none) ∧
      (∀ r, s.held r = .none → t.held r = .none) ∧ t.pc p = s.pc p := by
  induction qs generalizing s with
  | nil => exact ⟨[], s, .nil s, by simp, by simp, fun _ h => h, rfl⟩
  | cons q qs ih =>
    have hqp : p ≠ q := fun e => hp (by simp [e])
    obtain ⟨l, t, hr, hl, ht, ho⟩ := drain h q
    obtain ⟨l', u, hr', hl', hu, hk, hpc⟩ := ih (hr.inv h) (fun e => hp (by simp [e]))
    refine ⟨l ++ l', u, hr.trans hr', ?_, ?_, ?_, ?_⟩
    · intro x hx
      rcases List.mem_append.1 hx with hx | hx
      · exact ⟨by rw [(hl x hx).1]; exact hqp.symm, (hl x hx).2⟩
      · exact hl' x hx
    · intro r hr
      rcases List.mem_cons.1 hr with rfl | hr
      · exact hk _ ht
      · exact hu r hr
    · intro r hr0
      apply hk
      by_cases e : r = q
      · rw [e]; exact ht
      · rw [(ho r e).2]; exact hr0
    · rw [hpc]; exact (ho p hqp).1

end Verif.Locking
