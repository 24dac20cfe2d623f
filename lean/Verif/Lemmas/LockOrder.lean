import Verif.Model.LockOrder
import Mathlib.Algebra.BigOperators.Group.Finset.Basic
import Mathlib.Algebra.Order.BigOperators.Group.Finset
import Mathlib.Data.Fintype.Basic

/-!
Lemmas on programs that take locks in a fixed order.
-/

namespace Verif.LockOrder

variable {F ι : Type} [DecidableEq F] [DecidableEq ι]

/-- Each lock is taken, or taken again, only while all others that are held come earlier in the order. -/
def Ordered (rank : F → Nat) : List F → Prog F → Prop
  | L, .lock f c u => (∀ g ∈ L, rank g < rank f) ∧ Ordered rank (f :: L) c ∧ Ordered rank (f :: L) u
  | L, .work n => Ordered rank L n
  | L, .downgrade f n => f ∈ L ∧ (∀ g ∈ L, g ≠ f → rank g < rank f) ∧ Ordered rank L n
  | L, .close f n => Ordered rank (L.filter (· ≠ f)) n
  | _, .exit => True
  | _, .done => True

/-- What holds of a process at any time. -/
structure Good (rank : F → Nat) (P : Proc F) : Prop where
  order : ∃ L, (∀ f, P.held f ≠ .none → f ∈ L) ∧ Ordered rank L P.prog
  stage : P.stage = .idle ∨ (∃ f c u, P.prog = .lock f c u) ∨ ∃ f n, P.prog = .downgrade f n ∧ P.stage = .wantSH ∧ P.held f = .none
  ended : P.prog = .done → ∀ f, P.held f = .none

theorem good_start (rank : F → Nat) (P : Prog F) (h : Ordered rank [] P) : Good rank (start P) :=
  ⟨⟨[], fun _ hf => absurd rfl hf, h⟩, .inl rfl, fun _ _ => rfl⟩

theorem good_done (rank : F → Nat) : Good rank (⟨.done, fun _ => .none, .idle⟩ : Proc F) :=
  ⟨⟨[], fun _ hf => absurd rfl hf, trivial⟩, .inl rfl, fun _ _ => rfl⟩

/-- No program ends without `exit`. -/
def NoDone : Prog F → Prop
  | .lock _ c u => NoDone c ∧ NoDone u
  | .work n => NoDone n
  | .downgrade _ n => NoDone n
  | .close _ n => NoDone n
  | .exit => True
  | .done => False

theorem NoDone.ne {P : Prog F} (h : NoDone P) : P ≠ .done := by rintro rfl; exact h

/-- A process that has not ended will end with `exit`. -/
def Live (P : Proc F) : Prop := P.prog ≠ .done → NoDone P.prog

theorem move_keeps (rank : F → Nat) (sh ex : F → Prop) (P Q : Proc F) (hg : Good rank P) (hl : Live P) (h : Move sh ex P Q) : Good rank Q ∧ Live Q := by
  have hupd : ∀ (h : F → Mode) (f : F) (m : Mode) (L : List F), (∀ g, h g ≠ .none → g ∈ L) → ∀ g, Function.update h f m g ≠ .none → g ∈ f :: L := by
    intro h f m L hL g hgn
    by_cases hgf : g = f
    · simp [hgf]
    · rw [Function.update_of_ne hgf] at hgn
      exact List.mem_cons_of_mem _ (hL g hgn)
  obtain ⟨⟨L, hL, ho⟩, hs, he⟩ := hg
  cases h with
  | grantSH f c u h _ => exact ⟨⟨⟨L, hL, ho⟩, .inr (.inl ⟨_, _, _, rfl⟩), fun hd => by cases hd⟩, hl⟩
  | fresh f c u h =>
    have hn : NoDone c := (hl (by simp)).1
    exact ⟨⟨⟨f :: L, hupd _ _ _ _ hL, ho.2.1⟩, .inl rfl, fun hd => absurd hd hn.ne⟩, fun _ => hn⟩
  | stale f c u h => exact ⟨⟨⟨L, hL, ho⟩, .inr (.inl ⟨_, _, _, rfl⟩), fun hd => by cases hd⟩, hl⟩
  | grantEX f c u h _ => exact ⟨⟨⟨L, hL, ho⟩, .inr (.inl ⟨_, _, _, rfl⟩), fun hd => by cases hd⟩, hl⟩
  | freshNow f c u h => exact ⟨⟨⟨L, hL, ho⟩, .inr (.inl ⟨_, _, _, rfl⟩), fun hd => by cases hd⟩, hl⟩
  | staleNow f c u h =>
    have hn : NoDone u := (hl (by simp)).2
    exact ⟨⟨⟨f :: L, hupd _ _ _ _ hL, ho.2.2⟩, .inl rfl, fun hd => absurd hd hn.ne⟩, fun _ => hn⟩
  | regrant f c u h _ =>
    have hn : NoDone c := (hl (by simp)).1
    exact ⟨⟨⟨f :: L, hupd _ _ _ _ hL, ho.2.1⟩, .inl rfl, fun hd => absurd hd hn.ne⟩, fun _ => hn⟩
  | work n h =>
    have hn : NoDone n := hl (by simp)
    exact ⟨⟨⟨L, hL, ho⟩, .inl rfl, fun hd => absurd hd hn.ne⟩, fun _ => hn⟩
  | drop f n h =>
    refine ⟨⟨⟨L, ?_, ho⟩, .inr (.inr ⟨f, n, rfl, rfl, by simp⟩), fun hd => by cases hd⟩, hl⟩
    intro g hgn
    by_cases hgf : g = f
    · simp [hgf] at hgn
    · simp only [Function.update_of_ne hgf] at hgn
      exact hL g hgn
  | grantDown f n h _ =>
    have hn : NoDone n := hl (by simp)
    refine ⟨⟨⟨L, ?_, ho.2.2⟩, .inl rfl, fun hd => absurd hd hn.ne⟩, fun _ => hn⟩
    intro g hgn
    by_cases hgf : g = f
    · rw [hgf]
      exact ho.1
    · simp only [Function.update_of_ne hgf] at hgn
      exact hL g hgn
  | close f n h =>
    have hn : NoDone n := hl (by simp)
    refine ⟨⟨⟨L.filter (· ≠ f), ?_, ho⟩, .inl rfl, fun hd => absurd hd hn.ne⟩, fun _ => hn⟩
    intro g hgn
    by_cases hgf : g = f
    · simp [hgf] at hgn
    · simp only [Function.update_of_ne hgf] at hgn
      rw [List.mem_filter]
      exact ⟨hL g hgn, by simp [hgf]⟩
  | exit h => exact ⟨good_done rank, fun hd => absurd rfl hd⟩

theorem run_keeps (rank : F → Nat) (n : Nat) (s t : ι → Proc F) (h : Run n s t) (hs : ∀ p, Good rank (s p) ∧ Live (s p)) :
    ∀ p, Good rank (t p) ∧ Live (t p) := by
  induction h with
  | nil => exact hs
  | snoc _ st ih =>
    have ih := ih hs
    intro p
    cases st with
    | move q Q hm =>
      by_cases hp : p = q
      · subst hp
        rw [Function.update_self]
        exact move_keeps rank _ _ _ _ (ih p).1 (ih p).2 hm
      · rw [Function.update_of_ne hp]
        exact ih p
    | crash q hq =>
      by_cases hp : p = q
      · subst hp
        rw [Function.update_self]
        exact ⟨good_done rank, fun hd => absurd rfl hd⟩
      · rw [Function.update_of_ne hp]
        exact ih p

/-- What a process waits for: a file, and a lock in the way of it. -/
theorem stuck (rank : F → Nat) (s : ι → Proc F) (hs : ∀ p, Good rank (s p) ∧ Live (s p)) (hstuck : ∀ p Q, ¬ Move (canSH s p) (canEX s p) (s p) Q)
    (p : ι) (hp : (s p).prog ≠ .done) :
    ∃ f, (∀ g, (s p).held g ≠ .none → rank g < rank f) ∧ ∃ q, (s q).held f ≠ .none := by
  have hcur : ∀ q f, (s q).current f = .none := by
    intro q f
    cases hP : s q with
    | mk prog held stage =>
      have hq := hstuck q
      rw [hP] at hq
      cases prog with
      | lock g c u =>
        cases stage with
        | gotSH => exact absurd (Move.stale g c u held) (hq _)
        | gotEX => exact absurd (Move.freshNow g c u held) (hq _)
        | idle => rfl
        | wantEX => rfl
        | wantSH => rfl
      | _ => rfl
  have hsh : ∀ f, ¬ canSH s p f → ∃ q, (s q).held f ≠ .none := by
    intro f hf
    by_contra hno
    push Not at hno
    exact hf ⟨fun q => by rw [hno q]; decide, fun q _ => by rw [hcur]; decide⟩
  have hex : ∀ f, ¬ canEX s p f → ∃ q, (s q).held f ≠ .none := by
    intro f hf
    by_contra hno
    push Not at hno
    exact hf ⟨hno, fun q _ => hcur q f⟩
  obtain ⟨⟨⟨L, hL, ho⟩, hst, he⟩, hlive⟩ := hs p
  have hq := hstuck p
  cases hP : s p with
  | mk prog held stage =>
    rw [hP] at hq hL ho hst hp
    simp only at hL ho hst hp
    cases prog with
    | lock f c u =>
      refine ⟨f, fun g hg => ho.1 g (hL g hg), ?_⟩
      cases stage with
      | idle => exact hsh f fun h => hq _ (Move.grantSH f c u held h)
      | gotSH => exact absurd (Move.stale f c u held) (hq _)
      | wantEX => exact hex f fun h => hq _ (Move.grantEX f c u held h)
      | gotEX => exact absurd (Move.freshNow f c u held) (hq _)
      | wantSH => exact hsh f fun h => hq _ (Move.regrant f c u held h)
    | downgrade f n =>
      rcases hst with rfl | ⟨_, _, _, h⟩ | ⟨f', n', h, rfl, hn⟩
      · exact absurd (Move.drop f n held) (hq _)
      · cases h
      · cases h
        refine ⟨f, fun g hg => ho.2.1 g (hL g hg) ?_, hsh f fun h => hq _ (Move.grantDown f n held h)⟩
        rintro rfl
        exact hg hn
    | work n =>
      rcases hst with rfl | ⟨_, _, _, h⟩ | ⟨_, _, h, _⟩
      · exact absurd (Move.work n held) (hq _)
      · cases h
      · cases h
    | close f n =>
      rcases hst with rfl | ⟨_, _, _, h⟩ | ⟨_, _, h, _⟩
      · exact absurd (Move.close f n held) (hq _)
      · cases h
      · cases h
    | exit =>
      rcases hst with rfl | ⟨_, _, _, h⟩ | ⟨_, _, h, _⟩
      · exact absurd (Move.exit held) (hq _)
      · cases h
      · cases h
    | done => exact absurd rfl hp

theorem no_stuck (rank : F → Nat) (B : Nat) (hB : ∀ f, rank f ≤ B) (s : ι → Proc F) (hs : ∀ p, Good rank (s p) ∧ Live (s p))
    (hstuck : ∀ p Q, ¬ Move (canSH s p) (canEX s p) (s p) Q) (p : ι) : (s p).prog = .done := by
  by_contra hp
  have key : ∀ n p, (s p).prog ≠ .done → ∀ f, (s p).held f ≠ .none → B - rank f ≤ n → False := by
    intro n
    induction n with
    | zero =>
      intro p hp f hf hn
      obtain ⟨g, hg, -⟩ := stuck rank s hs hstuck p hp
      have := hg f hf
      have := hB g
      omega
    | succ n ih =>
      intro p hp f hf hn
      obtain ⟨g, hg, q, hq⟩ := stuck rank s hs hstuck p hp
      have h1 := hg f hf
      exact ih q (fun hd => hq ((hs q).1.ended hd g)) g hq (by omega)
  obtain ⟨f, -, q, hq⟩ := stuck rank s hs hstuck p hp
  exact key _ q (fun hd => hq ((hs q).1.ended hd f)) f hq (le_refl _)

/-! ### Length of runs -/

def size : Prog F → Nat
  | .lock _ c u => 1 + max (size c) (size u)
  | .work n => 1 + size n
  | .downgrade _ n => 1 + size n
  | .close _ n => 1 + size n
  | .exit => 1
  | .done => 0

def Stage.left : Stage → Nat
  | .idle => 4
  | .gotSH => 3
  | .wantEX => 2
  | .gotEX => 1
  | .wantSH => 0

def Proc.left (P : Proc F) : Nat := 5 * size P.prog + P.stage.left

theorem move_left (sh ex : F → Prop) (P Q : Proc F) (h : Move sh ex P Q) : Q.left + 1 ≤ P.left := by
  cases h <;> simp only [Proc.left, size, Stage.left] <;> omega

theorem crash_left (P : Proc F) (h : P.prog ≠ .done) : (⟨.done, fun _ => .none, .idle⟩ : Proc F).left + 1 ≤ P.left := by
  have : 1 ≤ size P.prog := by
    cases hP : P.prog <;> simp only [size] <;> first | omega | exact absurd hP h
  simp only [Proc.left, size, Stage.left]
  omega

theorem run_left [Fintype ι] (n : Nat) (s t : ι → Proc F) (h : Run n s t) : n + ∑ p, (t p).left ≤ ∑ p, (s p).left := by
  induction h with
  | nil => simp
  | @snoc n s t u _ st ih =>
    have hsum : ∀ (q : ι) (Q : Proc F), Q.left + 1 ≤ (t q).left → 1 + ∑ p, (Function.update t q Q p).left ≤ ∑ p, (t p).left := by
      intro q Q hQ
      rw [← Finset.add_sum_erase _ _ (Finset.mem_univ q), ← Finset.add_sum_erase Finset.univ (fun p => (t p).left) (Finset.mem_univ q), Function.update_self]
      have : ∑ p ∈ Finset.univ.erase q, (Function.update t q Q p).left = ∑ p ∈ Finset.univ.erase q, (t p).left := by
        apply Finset.sum_congr rfl
        intro p hp
        rw [Function.update_of_ne (Finset.ne_of_mem_erase hp)]
      rw [this]
      omega
    cases st with
    | move q Q hm => have := hsum q Q (move_left _ _ _ _ hm); omega
    | crash q hq => have := hsum q _ (crash_left _ hq); omega

/-! ### Exclusive locks -/

/-- A process has an exclusive lock on a file. -/
def HasEX (P : Proc F) (f : F) : Prop := P.held f = .ex ∨ P.current f = .ex

/-- A process has a lock on a file. -/
def HasAny (P : Proc F) (f : F) : Prop := P.held f ≠ .none ∨ P.current f ≠ .none

theorem HasEX.any {P : Proc F} {f : F} (h : HasEX P f) : HasAny P f := by
  rcases h with h | h
  · left; rw [h]; decide
  · right; rw [h]; decide

theorem any_ex_of_move (s : ι → Proc F) (p : ι) (Q : Proc F)  (h : Move (canSH s p) (canEX s p) (s p) Q) (f : F) :
    (HasAny Q f → HasAny (s p) f ∨ ∀ q, q ≠ p → ¬ HasEX (s q) f) ∧ (HasEX Q f → HasEX (s p) f ∨ ∀ q, q ≠ p → ¬ HasAny (s q) f) := by
  have hup : ∀ (h : F → Mode) (g : F) (m : Mode), (Function.update h g m f = if f = g then m else h f) := by
    intro h g m
    by_cases hfg : f = g
    · simp [hfg]
    · simp [hfg]
  have hidle : ∀ (P : Prog F) (h : F → Mode), (⟨P, h, .idle⟩ : Proc F).current f = .none := by
    intro P h
    cases P <;> rfl
  generalize hP : s p = P at h
  cases h with
  | grantSH g c u h hc =>
    by_cases hfg : f = g
    · subst hfg
      refine ⟨fun _ => .inr fun q hq hx => ?_, fun hx => ?_⟩
      · rcases hx with hx | hx
        · exact hc.1 q hx
        · exact hc.2 q hq hx
      · rcases hx with hx | hx
        · exact .inl (.inl hx)
        · simp [Proc.current] at hx
    · have hn : (⟨.lock g c u, h, .gotSH⟩ : Proc F).current f = .none := by simp [Proc.current, Ne.symm hfg]
      refine ⟨fun hx => .inl (.inl ?_), fun hx => .inl (.inl ?_)⟩
      · rcases hx with hx | hx
        · exact hx
        · exact absurd hn hx
      · rcases hx with hx | hx
        · exact hx
        · rw [hn] at hx; cases hx
  | fresh g c u h =>
    by_cases hfg : f = g
    · subst hfg
      refine ⟨fun _ => .inl (.inr (by simp [Proc.current])), fun hx => ?_⟩
      rcases hx with hx | hx
      · simp at hx
      · rw [hidle] at hx; cases hx
    · refine ⟨fun hx => .inl (.inl ?_), fun hx => .inl (.inl ?_)⟩
      · rcases hx with hx | hx
        · simpa [hfg] using hx
        · exact absurd (hidle _ _) hx
      · rcases hx with hx | hx
        · simpa [hfg] using hx
        · rw [hidle] at hx; cases hx
  | stale g c u h =>
    refine ⟨fun hx => .inl (.inl ?_), fun hx => .inl (.inl ?_)⟩
    · rcases hx with hx | hx
      · exact hx
      · exact absurd rfl hx
    · rcases hx with hx | hx
      · exact hx
      · cases hx
  | grantEX g c u h hc =>
    by_cases hfg : f = g
    · subst hfg
      have hno : ∀ q, q ≠ p → ¬ HasAny (s q) f := by
        rintro q hq (hx | hx)
        · exact hx (hc.1 q)
        · exact hx (hc.2 q hq)
      exact ⟨fun _ => .inr fun q hq hx => hno q hq hx.any, fun _ => .inr hno⟩
    · have hn : (⟨.lock g c u, h, .gotEX⟩ : Proc F).current f = .none := by simp [Proc.current, Ne.symm hfg]
      refine ⟨fun hx => .inl (.inl ?_), fun hx => .inl (.inl ?_)⟩
      · rcases hx with hx | hx
        · exact hx
        · exact absurd hn hx
      · rcases hx with hx | hx
        · exact hx
        · rw [hn] at hx; cases hx
  | freshNow g c u h =>
    refine ⟨fun hx => .inl (.inl ?_), fun hx => .inl (.inl ?_)⟩
    · rcases hx with hx | hx
      · exact hx
      · exact absurd rfl hx
    · rcases hx with hx | hx
      · exact hx
      · cases hx
  | staleNow g c u h =>
    by_cases hfg : f = g
    · subst hfg
      exact ⟨fun _ => .inl (.inr (by simp [Proc.current])), fun _ => .inl (.inr (by simp [Proc.current]))⟩
    · refine ⟨fun hx => .inl (.inl ?_), fun hx => .inl (.inl ?_)⟩
      · rcases hx with hx | hx
        · simpa [hfg] using hx
        · exact absurd (hidle _ _) hx
      · rcases hx with hx | hx
        · simpa [hfg] using hx
        · rw [hidle] at hx; cases hx
  | regrant g c u h hc =>
    by_cases hfg : f = g
    · subst hfg
      refine ⟨fun _ => .inr fun q hq hx => ?_, fun hx => ?_⟩
      · rcases hx with hx | hx
        · exact hc.1 q hx
        · exact hc.2 q hq hx
      · rcases hx with hx | hx
        · simp at hx
        · rw [hidle] at hx; cases hx
    · refine ⟨fun hx => .inl (.inl ?_), fun hx => .inl (.inl ?_)⟩
      · rcases hx with hx | hx
        · simpa [hfg] using hx
        · exact absurd (hidle _ _) hx
      · rcases hx with hx | hx
        · simpa [hfg] using hx
        · rw [hidle] at hx; cases hx
  | work n h =>
    refine ⟨fun hx => .inl (.inl ?_), fun hx => .inl (.inl ?_)⟩
    · rcases hx with hx | hx
      · exact hx
      · exact absurd (hidle _ _) hx
    · rcases hx with hx | hx
      · exact hx
      · rw [hidle] at hx; cases hx
  | drop g n h =>
    refine ⟨fun hx => .inl (.inl ?_), fun hx => .inl (.inl ?_)⟩
    · rcases hx with hx | hx
      · simp only [hup] at hx
        split at hx
        · exact absurd rfl hx
        · exact hx
      · exact absurd rfl hx
    · rcases hx with hx | hx
      · simp only [hup] at hx
        split at hx
        · cases hx
        · exact hx
      · cases hx
  | grantDown g n h hc =>
    by_cases hfg : f = g
    · subst hfg
      refine ⟨fun _ => .inr fun q hq hx => ?_, fun hx => ?_⟩
      · rcases hx with hx | hx
        · exact hc.1 q hx
        · exact hc.2 q hq hx
      · rcases hx with hx | hx
        · simp at hx
        · rw [hidle] at hx; cases hx
    · refine ⟨fun hx => .inl (.inl ?_), fun hx => .inl (.inl ?_)⟩
      · rcases hx with hx | hx
        · simpa [hfg] using hx
        · exact absurd (hidle _ _) hx
      · rcases hx with hx | hx
        · simpa [hfg] using hx
        · rw [hidle] at hx; cases hx
  | close g n h =>
    refine ⟨fun hx => .inl (.inl ?_), fun hx => .inl (.inl ?_)⟩
    · rcases hx with hx | hx
      · simp only [hup] at hx
        split at hx
        · exact absurd rfl hx
        · exact hx
      · exact absurd (hidle _ _) hx
    · rcases hx with hx | hx
      · simp only [hup] at hx
        split at hx
        · cases hx
        · exact hx
      · rw [hidle] at hx; cases hx
  | exit h =>
    refine ⟨fun hx => ?_, fun hx => ?_⟩
    · rcases hx with hx | hx
      · exact absurd rfl hx
      · exact absurd rfl hx
    · rcases hx with hx | hx
      · cases hx
      · cases hx

theorem run_exclusive (n : Nat) (s t : ι → Proc F) (h : Run n s t) (hs : ∀ p f, ¬ HasAny (s p) f) (p q : ι) (hpq : p ≠ q) (f : F)
    (hx : HasEX (t p) f) : ¬ HasAny (t q) f := by
  induction h generalizing p q with
  | nil => exact hs q f
  | @snoc n s t u _ st ih =>
    have ih := ih hs
    cases st with
    | move r Q hm =>
      have key := any_ex_of_move t r Q hm f
      by_cases hp : p = r
      · subst hp
        rw [Function.update_self] at hx
        rw [Function.update_of_ne hpq.symm]
        rcases key.2 hx with h | h
        · exact ih p q hpq h
        · exact h q hpq.symm
      · rw [Function.update_of_ne hp] at hx
        by_cases hq : q = r
        · subst hq
          rw [Function.update_self]
          intro ha
          rcases key.1 ha with h | h
          · exact ih p q hpq hx h
          · exact h p hpq hx
        · rw [Function.update_of_ne hq]
          exact ih p q hpq hx
    | crash r hr =>
      by_cases hp : p = r
      · subst hp
        rw [Function.update_self] at hx
        rcases hx with hx | hx <;> cases hx
      · rw [Function.update_of_ne hp] at hx
        by_cases hq : q = r
        · subst hq
          rw [Function.update_self]
          rintro (ha | ha) <;> exact absurd rfl ha
        · rw [Function.update_of_ne hq]
          exact ih p q hpq hx

/-! ### The programs of kerncraft -/

/-- Order in which files are locked. -/
def rank : File → Nat
  | .analysis _ | .executable _ _ | .prediction _ => 0
  | .marked _ | .main => 1
  | .markedObject _ | .assembly _ | .object _ _ => 2
  | .header => 3
  | .code _ => 4

theorem ordered_kerncraft (ts : List Task) : Ordered rank [] (kerncraft ts) ∧ NoDone (kerncraft ts) := by
  induction ts with
  | nil => exact ⟨trivial, trivial⟩
  | cons t ts ih =>
    cases t with
    | incore ka km ko ks iaca =>
      cases iaca <;> simp [kerncraft, incore, compile, assemble, source, Ordered, NoDone, rank, ih.1, ih.2]
    | benchmark ke ko omp => simp [kerncraft, benchmark, compile, source, Ordered, NoDone, rank, ih.1, ih.2]
    | predict key => simp [kerncraft, predict, Ordered, NoDone, rank, ih.1, ih.2]

theorem good_kerncraft (tasks : ι → List Task) (p : ι) : Good rank (start (kerncraft (tasks p))) ∧ Live (start (kerncraft (tasks p))) :=
  ⟨good_start rank _ (ordered_kerncraft (tasks p)).1, fun _ => (ordered_kerncraft (tasks p)).2⟩

end Verif.LockOrder
