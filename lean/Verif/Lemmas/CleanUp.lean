import Verif.Model.CleanUp
import Mathlib.Tactic.Tauto

/-!
Invariant of runs in which intermediate files are only removed while no other run is active.
-/

namespace Verif.CleanUp

variable {ι : Type} [DecidableEq ι]

/-- Mode that belongs to a control state. -/
def modeOf : PC → Mode
  | .gotSH | .stale | .reading => .sh
  | .gotEX | .conv | .writing | .partialWrite | .wrote => .ex
  | _ => .none

/-- Control states in which the file is known to be complete. -/
def settled : PC → Bool
  | .conv | .wrote | .wantSH2 | .reading => true
  | _ => false

/-- Control states of writers. -/
def writes : PC → Bool
  | .writing | .partialWrite => true
  | _ => false

structure Inv (s : State ι) : Prop where
  same : ∀ p, s.active p → s.name = some (s.lockFile p)
  held : ∀ p, s.held p = modeOf (s.pc p)
  excl : ∀ p q, p ≠ q → s.held p = .ex → s.held q = .none
  whole : ∀ p, settled (s.pc p) = true → s.file = ⟨true, true⟩
  quiet : ∀ p q, settled (s.pc p) = true → writes (s.pc q) = false
  part : s.file.present = true → s.file.complete = true ∨ ∃ p, s.pc p = .partialWrite

theorem inv_initial (s : State ι) (h : Initial s) : Inv s where
  same p hp := absurd (h.pc p) hp.1
  held p := by rw [h.held, h.pc]; rfl
  excl p q _ hp := by rw [h.held] at hp; cases hp
  whole p hp := by rw [h.pc] at hp; cases hp
  quiet p q hp := by rw [h.pc] at hp; cases hp
  part hp := .inl (h.file hp)

/-- A step of `p`, in general. -/
theorem inv_go (s : State ι) (p : ι) (c : PC) (m : Mode) (f : File) (h : Inv s) (hp : s.active p) (hm : m = modeOf c)
    (hex : m = .ex → ∀ q, q ≠ p → s.held q = .none) (hsh : m ≠ .none → ∀ q, q ≠ p → s.held q ≠ .ex)
    (hs : settled c = true → f = ⟨true, true⟩ ∧ ∀ q, q ≠ p → writes (s.pc q) = false)
    (hw : writes c = true → ∀ q, q ≠ p → settled (s.pc q) = false)
    (hf : ∀ q, q ≠ p → settled (s.pc q) = true → f = ⟨true, true⟩)
    (hpart : f.present = true → f.complete = true ∨ c = .partialWrite ∨ ∃ q, q ≠ p ∧ s.pc q = .partialWrite) :
    Inv { s.go p c m with file := f } where
  same q hq := by
    by_cases e : q = p
    · subst e; exact h.same q hp
    · refine h.same q ?_
      simpa [State.active, State.go, e] using hq
  held q := by
    by_cases e : q = p
    · subst e; simp [State.go, hm]
    · simp [State.go, e, h.held q]
  excl a b hab ha := by
    by_cases ea : a = p
    · subst ea
      have eb : b ≠ a := fun e => hab e.symm
      simp only [State.go, Function.update_self] at ha
      simp [State.go, eb, hex ha b eb]
    · simp only [State.go, Function.update_of_ne ea] at ha
      by_cases eb : b = p
      · subst eb
        simp only [State.go, Function.update_self]
        by_contra hne
        exact hsh hne a ea ha
      · simp only [State.go, Function.update_of_ne eb]
        exact h.excl a b hab ha
  whole q hq := by
    by_cases e : q = p
    · subst e
      simp only [State.go, Function.update_self] at hq
      exact (hs hq).1
    · simp only [State.go, Function.update_of_ne e] at hq
      exact hf q e hq
  quiet a b ha := by
    by_cases ea : a = p
    · subst ea
      simp only [State.go, Function.update_self] at ha
      by_cases eb : b = a
      · subst eb
        simp only [State.go, Function.update_self]
        cases c <;> simp_all [settled, writes]
      · simp only [State.go, Function.update_of_ne eb]
        exact (hs ha).2 b eb
    · simp only [State.go, Function.update_of_ne ea] at ha
      by_cases eb : b = p
      · subst eb
        simp only [State.go, Function.update_self]
        by_contra hne
        have := hw (by simpa using hne) a ea
        rw [ha] at this
        cases this
      · simp only [State.go, Function.update_of_ne eb]
        exact h.quiet a b ha
  part hpr := by
    rcases hpart hpr with hc | hc | ⟨q, hq, hc⟩
    · exact .inl hc
    · exact .inr ⟨p, by simp [State.go, hc]⟩
    · exact .inr ⟨q, by simp [State.go, hq, hc]⟩

/-- Opening the lock file. -/
theorem inv_open (s : State ι) (p : ι) (i n : Nat) (h : Inv s) (hp : s.pc p = .idle) (hi : ∀ q, s.active q → s.lockFile q = i) :
    Inv { s.go p .wantSH .none with lockFile := Function.update s.lockFile p i, name := some i, next := n } where
  same q hq := by
    by_cases e : q = p
    · subst e; simp
    · simp only [Function.update_of_ne e]
      rw [hi q (by simpa [State.active, State.go, e] using hq)]
  held q := by
    by_cases e : q = p
    · subst e; simp [State.go, modeOf]
    · simp [State.go, e, h.held q]
  excl a b hab ha := by
    by_cases ea : a = p
    · subst ea
      simp [State.go] at ha
    · simp only [State.go, Function.update_of_ne ea] at ha
      by_cases eb : b = p
      · subst eb; simp [State.go]
      · simp only [State.go, Function.update_of_ne eb]
        exact h.excl a b hab ha
  whole q hq := by
    by_cases e : q = p
    · subst e
      simp [State.go, settled] at hq
    · simp only [State.go, Function.update_of_ne e] at hq
      exact h.whole q hq
  quiet a b ha := by
    by_cases ea : a = p
    · subst ea
      simp [State.go, settled] at ha
    · simp only [State.go, Function.update_of_ne ea] at ha
      by_cases eb : b = p
      · subst eb; simp [State.go, writes]
      · simp only [State.go, Function.update_of_ne eb]
        exact h.quiet a b ha
  part hpr := by
    rcases h.part hpr with hc | ⟨q, hq⟩
    · exact .inl hc
    · have e : q ≠ p := by rintro rfl; rw [hp] at hq; cases hq
      exact .inr ⟨q, by simp [State.go, e, hq]⟩

/-- Locks of other runs on the same lock file are the locks of all other runs. -/
theorem held_all (s : State ι) (h : Inv s) (p q : ι) (hp : s.active p) (hq : s.held q ≠ .none) : s.lockFile q = s.lockFile p := by
  have ha : s.active q := by
    rw [h.held] at hq
    refine ⟨?_, ?_, ?_⟩ <;> intro e <;> rw [e] at hq <;> exact hq rfl
  have := (h.same q ha).symm.trans (h.same p hp)
  simpa using this

theorem canSH_all (s : State ι) (h : Inv s) (p : ι) (hp : s.active p) (hc : canSH s p) (q : ι) (hq : q ≠ p) : s.held q ≠ .ex := by
  intro e
  exact hc q hq (held_all s h p q hp (by rw [e]; simp)) e

theorem canEX_all (s : State ι) (h : Inv s) (p : ι) (hp : s.active p) (hc : canEX s p) (q : ι) (hq : q ≠ p) : s.held q = .none := by
  by_contra e
  exact e (hc q hq (held_all s h p q hp e))

/-- While a run has the exclusive lock, no other run writes or reads. -/
theorem alone (s : State ι) (h : Inv s) (p q : ι) (hq : q ≠ p) (hp : modeOf (s.pc p) = .ex) : modeOf (s.pc q) = .none := by
  rw [← h.held] at hp ⊢
  exact h.excl p q (Ne.symm hq) hp

theorem writes_ex {c : PC} (h : writes c = true) : modeOf c = .ex := by
  cases c <;> simp_all [writes, modeOf]

/-- If no other run has the exclusive lock, no other run writes. -/
theorem no_writer (s : State ι) (h : Inv s) (p : ι) (hx : ∀ q, q ≠ p → s.held q ≠ .ex) (q : ι) (hq : q ≠ p) : writes (s.pc q) = false := by
  by_contra hne
  exact hx q hq (by rw [h.held]; exact writes_ex (by simpa using hne))

theorem inv_step (p : ι) (s t : State ι) (h : Inv s) (hst : Step p s t) : Inv t := by
  have act : ∀ c, s.pc p = c → c ≠ .idle → c ≠ .done ∧ c ≠ .gone → s.active p := by
    intro c e h1 h2
    exact ⟨e ▸ h1, e ▸ h2.1, e ▸ h2.2⟩
  have keep : ∀ q, q ≠ p → settled (s.pc q) = true → s.file = ⟨true, true⟩ := fun q _ hq => h.whole q hq
  have part' : s.pc p ≠ .partialWrite → ∀ c : PC, s.file.present = true →
      s.file.complete = true ∨ c = .partialWrite ∨ ∃ q, q ≠ p ∧ s.pc q = .partialWrite := by
    intro hne c hpr
    rcases h.part hpr with hc | ⟨q, hq⟩
    · exact .inl hc
    · refine .inr (.inr ⟨q, ?_, hq⟩)
      rintro rfl
      exact hne hq
  have exOf : ∀ c, s.pc p = c → modeOf c = .ex → ∀ q, q ≠ p → s.held q = .none := by
    intro c e hm q hq
    rw [h.held]
    exact alone s h p q hq (by rw [e, hm])
  have shOf : ∀ c, s.pc p = c → modeOf c = .sh → ∀ q, q ≠ p → s.held q ≠ .ex := by
    intro c e hm q hq he
    have := h.excl q p hq he
    rw [h.held, e, hm] at this
    cases this
  cases hst with
  | openOld i hp hn =>
    refine (show { s.go p .wantSH .none with lockFile := Function.update s.lockFile p i } =
      { s.go p .wantSH .none with lockFile := Function.update s.lockFile p i, name := some i, next := s.next } by
        simp only [State.go]; rw [hn]) ▸ inv_open s p i s.next h hp ?_
    intro q hq
    have := (h.same q hq).symm.trans hn
    simpa using this
  | openNew hp hn =>
    refine inv_open s p s.next (s.next + 1) h hp ?_
    intro q hq
    have := h.same q hq
    rw [hn] at this
    cases this
  | grantSH hp hc =>
    have ha := act _ hp (by simp) (by simp)
    refine inv_go s p .gotSH .sh s.file h ha rfl (by simp) (fun _ => canSH_all s h p ha hc) (by simp [settled]) (by simp [writes]) keep
      (part' (by rw [hp]; simp) _)
  | check1 hp =>
    have ha := act _ hp (by simp) (by simp)
    have hx := shOf _ hp rfl
    have hne : s.pc p ≠ .partialWrite := by rw [hp]; simp
    by_cases hpr : s.file.present = true
    · rw [if_pos hpr]
      have hfull : s.file = ⟨true, true⟩ := by
        rcases h.part hpr with hc | ⟨q, hq⟩
        · cases hf : s.file
          rw [hf] at hc hpr
          simp_all
        · exfalso
          have e : q ≠ p := by rintro rfl; exact hne hq
          have := no_writer s h p hx q e
          rw [hq] at this
          cases this
      exact inv_go s p .reading .sh s.file h ha rfl (by simp) (fun _ => hx) (fun _ => ⟨hfull, no_writer s h p hx⟩) (by simp [writes]) keep
        (part' hne _)
    · rw [if_neg hpr]
      exact inv_go s p .stale .sh s.file h ha rfl (by simp) (fun _ => hx) (by simp [settled]) (by simp [writes]) keep (part' hne _)
  | unlock hp =>
    have ha := act _ hp (by simp) (by simp)
    exact inv_go s p .wantEX .none s.file h ha rfl (by simp) (by simp) (by simp [settled]) (by simp [writes]) keep (part' (by rw [hp]; simp) _)
  | grantEX hp hc =>
    have ha := act _ hp (by simp) (by simp)
    have hx := canEX_all s h p ha hc
    exact inv_go s p .gotEX .ex s.file h ha rfl (fun _ => hx) (fun _ q hq => by rw [hx q hq]; simp) (by simp [settled]) (by simp [writes]) keep
      (part' (by rw [hp]; simp) _)
  | check2 hp =>
    have ha := act _ hp (by simp) (by simp)
    have hx := exOf _ hp rfl
    have hx' : ∀ q, q ≠ p → s.held q ≠ .ex := fun q hq => by rw [hx q hq]; simp
    have hne : s.pc p ≠ .partialWrite := by rw [hp]; simp
    by_cases hpr : s.file.present = true
    · rw [if_pos hpr]
      have hfull : s.file = ⟨true, true⟩ := by
        rcases h.part hpr with hc | ⟨q, hq⟩
        · cases hf : s.file
          rw [hf] at hc hpr
          simp_all
        · exfalso
          have e : q ≠ p := by rintro rfl; exact hne hq
          have := no_writer s h p hx' q e
          rw [hq] at this
          cases this
      exact inv_go s p .conv .ex s.file h ha rfl (fun _ => hx) (fun _ => hx') (fun _ => ⟨hfull, no_writer s h p hx'⟩) (by simp [writes]) keep
        (part' hne _)
    · rw [if_neg hpr]
      refine inv_go s p .writing .ex s.file h ha rfl (fun _ => hx) (fun _ => hx') (by simp [settled]) ?_ keep (part' hne _)
      intro _ q hq
      by_contra hse
      exact hpr (by rw [h.whole q (by simpa using hse)])
  | write hp =>
    have ha := act _ hp (by simp) (by simp)
    have hx := exOf _ hp rfl
    have nos : ∀ q, settled (s.pc q) = false := by
      intro q
      by_contra hse
      have := h.quiet q p (by simpa using hse)
      rw [hp] at this
      cases this
    exact inv_go s p .partialWrite .ex _ h ha rfl (fun _ => hx) (fun _ q hq => by rw [hx q hq]; simp) (by simp [settled]) (fun _ q _ => nos q)
      (fun q _ hq => by rw [nos q] at hq; cases hq) (fun _ => .inr (.inl rfl))
  | finish hp =>
    have ha := act _ hp (by simp) (by simp)
    have hx := exOf _ hp rfl
    have hx' : ∀ q, q ≠ p → s.held q ≠ .ex := fun q hq => by rw [hx q hq]; simp
    exact inv_go s p .wrote .ex _ h ha rfl (fun _ => hx) (fun _ => hx') (fun _ => ⟨rfl, no_writer s h p hx'⟩) (by simp [writes])
      (fun _ _ _ => rfl) (fun _ => .inl rfl)
  | drop hp =>
    have hse : settled (s.pc p) = true := by rcases hp with hp | hp <;> rw [hp] <;> rfl
    have ha : s.active p := by rcases hp with hp | hp <;> exact act _ hp (by simp) (by simp)
    exact inv_go s p .wantSH2 .none s.file h ha rfl (by simp) (by simp) (fun _ => ⟨h.whole p hse, fun q _ => h.quiet p q hse⟩) (by simp [writes]) keep
      (part' (by rcases hp with hp | hp <;> rw [hp] <;> simp) _)
  | grantSH2 hp hc =>
    have hse : settled (s.pc p) = true := by rw [hp]; rfl
    have ha := act _ hp (by simp) (by simp)
    exact inv_go s p .reading .sh s.file h ha rfl (by simp) (fun _ => canSH_all s h p ha hc) (fun _ => ⟨h.whole p hse, fun q _ => h.quiet p q hse⟩)
      (by simp [writes]) keep (part' (by rw [hp]; simp) _)
  | close hp =>
    have ha := act _ hp (by simp) (by simp)
    exact inv_go s p .done .none s.file h ha rfl (by simp) (by simp) (by simp [settled]) (by simp [writes]) keep (part' (by rw [hp]; simp) _)

theorem inv_remove (s : State ι) (p : ι) (h : Inv s) (hq : ∀ q, ¬ s.active q) : Inv (s.remove p) := by
  have none_ : ∀ q, (s.remove p).pc q = .idle ∨ (s.remove p).pc q = .done ∨ (s.remove p).pc q = .gone := by
    intro q
    by_cases e : q = p
    · subst e; exact .inr (.inr (by simp [State.remove, State.go]))
    · have := hq q
      simp only [State.active] at this
      simp only [State.remove, State.go, Function.update_of_ne e]
      tauto
  have held_ : ∀ q, (s.remove p).held q = .none ∧ modeOf ((s.remove p).pc q) = .none := by
    intro q
    have h2 : modeOf ((s.remove p).pc q) = .none := by rcases none_ q with e | e | e <;> rw [e] <;> rfl
    refine ⟨?_, h2⟩
    by_cases e : q = p
    · subst e; simp [State.remove, State.go]
    · have h1 := h.held q
      simp only [State.remove, State.go, Function.update_of_ne e] at h2 ⊢
      rw [h1, h2]
  have calm : ∀ q, settled ((s.remove p).pc q) = false := by
    intro q
    rcases none_ q with e | e | e <;> rw [e] <;> rfl
  refine ⟨fun q ha => ?_, fun q => ?_, fun a b _ _ => (held_ b).1, fun q hs => ?_, fun a b hs => ?_, fun hp => by cases hp⟩
  · rcases none_ q with e | e | e
    · exact absurd e ha.1
    · exact absurd e ha.2.1
    · exact absurd e ha.2.2
  · rw [(held_ q).1, (held_ q).2]
  · rw [calm q] at hs; cases hs
  · rw [calm a] at hs; cases hs

theorem inv_run (s t : State ι) (h : Run True s t) (hi : Inv s) : Inv t := by
  induction h with
  | nil => exact hi
  | step _ hst ih => exact inv_step _ _ _ ih hst
  | remove _ _ hq ih => exact inv_remove _ _ ih (hq trivial)

end Verif.CleanUp
