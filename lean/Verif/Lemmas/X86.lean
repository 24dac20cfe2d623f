import Verif.Spec.X86
import Mathlib.Tactic.Common
import Mathlib.Data.List.Induction
import Mathlib.Algebra.Order.Ring.Int
import Mathlib.Tactic.Ring

/-!
Helper lemmas for C56, C63 and C64.
-/

namespace Verif.Asm

open Verif.Spec

/-! ### Mnemonics -/

theorem isMn_iff (root m : String) : isMn root m = true ↔ hasRoot root m := by
  simp only [isMn, hasRoot, Bool.or_eq_true, decide_eq_true_eq, List.mem_cons, List.not_mem_nil, or_false,
    exists_eq_or_imp, exists_eq_left]
  tauto

theorem isMn_false_iff (root m : String) : isMn root m = false ↔ ¬ hasRoot root m := by
  rw [← isMn_iff]; simp

/-- The recognised mnemonics. -/
def roots : List String := ["inc", "add", "dec", "sub", "lea"]

theorem hasRoot_unique (m a b : String) (ha : a ∈ roots) (hb : b ∈ roots) (h1 : hasRoot a m) (h2 : hasRoot b m) : a = b := by
  have key : ∀ a ∈ roots, ∀ b ∈ roots, ∀ x ∈ ["", "b", "w", "l", "q"], ∀ y ∈ ["", "b", "w", "l", "q"],
      a ++ x = b ++ y → a = b := by decide
  have hx : ∀ a, hasRoot a m → ∃ x ∈ ["", "b", "w", "l", "q"], m = a ++ x := by
    rintro a (h | ⟨c, hc, h⟩)
    · exact ⟨"", by simp, by simp [h]⟩
    · exact ⟨c, List.mem_cons_of_mem _ hc, h⟩
  obtain ⟨x, hx1, hx2⟩ := hx a h1
  obtain ⟨y, hy1, hy2⟩ := hx b h2
  exact key a ha b hb x hx1 y hy1 (hx2 ▸ hy2)

/-! ### References -/

theorem change_refs (st : St) (r : String) (d : Int) :
    (st.change r d).refs = st.refs ∧ (st.change r d).storesOnly = st.storesOnly := ⟨rfl, rfl⟩

theorem stepAddSub_refs (st st' : St) (f : Int → Int) (ops : List Operand) (h : stepAddSub st f ops = .ok st') :
    st'.refs = st.refs ∧ st'.storesOnly = st.storesOnly := by
  unfold stepAddSub at h
  repeat' split at h
  all_goals first
    | (simp only [Except.ok.injEq] at h; subst h; exact ⟨rfl, rfl⟩)
    | simp at h

theorem stepLea_refs (st st' : St) (ops : List Operand) (h : stepLea st ops = .ok st') :
    st'.refs = st.refs ∧ st'.storesOnly = st.storesOnly := by
  unfold stepLea at h
  repeat' split at h
  all_goals first
    | (simp only [Except.ok.injEq] at h; subst h; exact ⟨rfl, rfl⟩)
    | simp at h

theorem step_refs (st st' : St) (l : Line) (h : step st l = .ok st') :
    (l.mnemonic = none ∧ st' = st) ∨
    (l.mnemonic ≠ none ∧ st'.refs = (stepRefs st l).refs ∧ st'.storesOnly = (stepRefs st l).storesOnly) := by
  unfold step at h
  cases hm : l.mnemonic with
  | none =>
    rw [hm] at h
    simp only [Except.ok.injEq] at h
    exact Or.inl ⟨rfl, h.symm⟩
  | some m =>
    rw [hm] at h
    refine Or.inr ⟨by simp, ?_⟩
    simp only at h
    repeat' split at h
    all_goals first
      | (simp only [Except.ok.injEq] at h; subst h; exact ⟨rfl, rfl⟩)
      | exact stepAddSub_refs _ _ _ _ h
      | exact stepLea_refs _ _ _ h
      | simp at h

theorem scan_snoc (st : St) (a : List Line) (l : Line) (st' : St) (h : scan st (a ++ [l]) = .ok st') :
    ∃ st1, scan st a = .ok st1 ∧ step st1 l = .ok st' := by
  induction a generalizing st with
  | nil =>
    simp only [List.nil_append, scan] at h
    refine ⟨st, rfl, ?_⟩
    revert h
    cases step st l <;> simp
  | cons x a ih =>
    simp only [List.cons_append, scan] at h ⊢
    revert h
    cases hx : step st x with
    | error e => simp
    | ok st1 => simp only; exact ih st1

theorem memsOf_mem (ops : List Operand) (m : Mem) : m ∈ memsOf ops ↔ Operand.mem m ∈ ops := by
  unfold memsOf
  rw [List.mem_filterMap]
  constructor
  · rintro ⟨o, ho, h⟩
    cases o <;> simp_all
  · intro h
    exact ⟨_, h, rfl⟩

theorem store_snoc (a : List Line) (l : Line) (m : Mem) :
    Store (a ++ [l]) m ↔ Store a m ∨ (l.mnemonic ≠ none ∧ Operand.mem m ∈ l.dst ∧ m.base ≠ some "rip") := by
  unfold Store
  simp only [List.mem_append, List.mem_singleton]
  constructor
  · rintro ⟨x, hx | rfl, h⟩
    · exact Or.inl ⟨x, hx, h⟩
    · exact Or.inr h
  · rintro (⟨x, hx, h⟩ | h)
    · exact ⟨x, Or.inl hx, h⟩
    · exact ⟨l, Or.inr rfl, h⟩

theorem load_snoc (a : List Line) (l : Line) (m : Mem) :
    Load (a ++ [l]) m ↔ Load a m ∨ (l.mnemonic ≠ none ∧ Operand.mem m ∈ l.src) := by
  unfold Load
  simp only [List.mem_append, List.mem_singleton]
  constructor
  · rintro ⟨x, hx | rfl, h⟩
    · exact Or.inl ⟨x, hx, h⟩
    · exact Or.inr h
  · rintro (⟨x, hx, h⟩ | h)
    · exact ⟨x, Or.inl hx, h⟩
    · exact ⟨l, Or.inr rfl, h⟩

theorem scan_refs (block : List Line) (st : St) (h : scan St.init block = .ok st) :
    (st.storesOnly = true ↔ ∃ m, Store block m) ∧
    (st.storesOnly = true → ∀ m, m ∈ st.refs ↔ Store block m) ∧
    (st.storesOnly = false → ∀ m, m ∈ st.refs ↔ Load block m) := by
  induction block using List.reverseRecOn generalizing st with
  | nil =>
    simp only [scan, Except.ok.injEq] at h
    subst h
    refine ⟨?_, ?_, ?_⟩
    · simp [St.init, Store]
    · simp [St.init]
    · simp [St.init, Load]
  | append_singleton a l ih =>
    obtain ⟨st1, h1, h2⟩ := scan_snoc _ _ _ _ h
    obtain ⟨i1, i2, i3⟩ := ih st1 h1
    rcases step_refs _ _ _ h2 with ⟨hm, rfl⟩ | ⟨hm, hr, hs⟩
    · have e1 : ∀ m, Store (a ++ [l]) m ↔ Store a m := by intro m; rw [store_snoc]; simp [hm]
      have e2 : ∀ m, Load (a ++ [l]) m ↔ Load a m := by intro m; rw [load_snoc]; simp [hm]
      simp only [e1, e2]
      exact ⟨i1, i2, i3⟩
    · rw [hr, hs]
      have hdst : ∀ m, m ∈ (memsOf l.dst).filter (fun m => m.base ≠ some "rip") ↔
          (l.mnemonic ≠ none ∧ Operand.mem m ∈ l.dst ∧ m.base ≠ some "rip") := by
        intro m
        rw [List.mem_filter, memsOf_mem]
        simp [hm]
      simp only [stepRefs]
      generalize (memsOf l.dst).filter (fun m => m.base ≠ some "rip") = dst at hdst
      simp only [store_snoc, load_snoc, ← hdst]
      by_cases hd : dst = []
      · subst hd
        simp only [ne_eq, not_true, if_false, List.not_mem_nil, or_false]
        by_cases hso : st1.storesOnly = true
        · simp only [hso, if_true]
          refine ⟨⟨fun _ => i1.mp hso, fun _ => trivial⟩, fun _ => i2 hso, by simp⟩
        · have hso' : st1.storesOnly = false := by simpa using hso
          rw [if_neg hso]
          refine ⟨i1, fun h => absurd h hso, fun _ m => ?_⟩
          simp only [List.mem_append, memsOf_mem, i3 hso' m, hm, not_false_eq_true, true_and]
      · simp only [ne_eq, hd, not_false_eq_true, if_true]
        obtain ⟨m0, hm0⟩ := List.exists_mem_of_ne_nil _ hd
        refine ⟨⟨fun _ => ⟨m0, Or.inr hm0⟩, fun _ => trivial⟩, fun _ m => ?_, by simp⟩
        by_cases hso : st1.storesOnly = true
        · simp [hso, i2 hso m]
        · have : ¬ Store a m := fun hst => hso (i1.mpr ⟨m, hst⟩)
          simp [hso, this]

theorem scan_relevant (block : List Line) (st : St) (h : scan St.init block = .ok st) (m : Mem) :
    m ∈ st.refs ↔ Relevant block m := by
  obtain ⟨h1, h2, h3⟩ := scan_refs block st h
  unfold Relevant
  cases hs : st.storesOnly with
  | true =>
    rw [h2 hs]
    have := h1.mp hs
    simp [this]
  | false =>
    rw [h3 hs]
    have hn : ¬ ∃ m, Store block m := fun he => by rw [h1.mpr he] at hs; simp at hs
    have : ¬ Store block m := fun he => hn ⟨m, he⟩
    simp [this, hn]

/-! ### Changes of registers -/

/-- Operand shapes of the recognised instructions (AT&T order). -/
def WellFormed (l : Line) : Prop :=
  ∀ m, l.mnemonic = some m →
    (hasRoot "inc" m ∨ hasRoot "dec" m → ∃ o, l.operands = [o] ∧ ∀ n, o ≠ .ident n) ∧
    (hasRoot "add" m ∨ hasRoot "sub" m → ∃ a b, l.operands = [a, b]) ∧
    (hasRoot "lea" m → ∃ mem p r, l.operands = [.mem mem, .reg p r])

/-- A `lea` that writes `r` only adds a constant to it. -/
def LeaAdds (l : Line) (r : String) : Prop :=
  ∀ m mem p, l.mnemonic = some m → hasRoot "lea" m → l.operands = [.mem mem, .reg p r] →
    (mem.base = some r ∧ mem.index = none) ∨ (mem.base = none ∧ mem.index = some r ∧ mem.scale = 1)

/-- The state of the scan did not change with respect to the register. -/
def Same (st st' : St) (r : String) : Prop :=
  st'.modified.count r = st.modified.count r ∧ st'.incs.lookup r = st.incs.lookup r

/-- The scan has seen a change of the register by `d`. -/
def Changed (st st' : St) (r : String) (d : Int) : Prop :=
  st'.modified.count r = st.modified.count r + 1 ∧ st'.incs.lookup r = some d

theorem stepRefs_keeps (st : St) (l : Line) :
    (stepRefs st l).incs = st.incs ∧ (stepRefs st l).modified = st.modified := by
  unfold stepRefs
  simp only
  constructor <;> (repeat' split) <;> rfl

theorem change_hit (st : St) (r : String) (d : Int) : Changed st (st.change r d) r d := by
  refine ⟨?_, ?_⟩
  · simp [St.change]
  · simp [St.change]

theorem change_miss (st : St) (r r' : String) (d : Int) (h : r' ≠ r) : Same st (st.change r' d) r := by
  refine ⟨?_, ?_⟩
  · simp [St.change, h]
  · have : (r == r') = false := by simpa using Ne.symm h
    simp [St.change, List.lookup, this]

theorem same_of_refs (st st' : St) (l : Line) (r : String) (h : Same (stepRefs st l) st' r) : Same st st' r := by
  obtain ⟨h1, h2⟩ := stepRefs_keeps st l
  unfold Same at *
  rwa [h1, h2] at h

theorem changed_of_refs (st st' : St) (l : Line) (r : String) (d : Int) (h : Changed (stepRefs st l) st' r d) :
    Changed st st' r d := by
  obtain ⟨_, h2⟩ := stepRefs_keeps st l
  unfold Changed at *
  rwa [h2] at h

theorem change_cases (st : St) (r r' : String) (d : Int) (s : Regs) (v : Int) (hv : r' = r → v = s r + d) :
    (Same st (st.change r' d) r ∧ Function.update s r' v r = s r) ∨
    ∃ d', Changed st (st.change r' d) r d' ∧ Function.update s r' v r = s r + d' := by
  by_cases h : r' = r
  · subst h
    exact Or.inr ⟨d, change_hit st r' d, by simp [hv rfl]⟩
  · refine Or.inl ⟨change_miss st r r' d h, ?_⟩
    rw [Function.update_of_ne (Ne.symm h)]

/-- What the scan records about a register is what the instruction does to it. -/
theorem step_change (other : Line → Regs → Regs → Prop) (st st' : St) (l : Line) (s s' : Regs) (r : String)
    (hst : step st l = .ok st') (hex : Exec other l s s') (hwf : WellFormed l)
    (ho : other l s s' → s' r = s r) (hlea : LeaAdds l r) :
    (Same st st' r ∧ s' r = s r) ∨ ∃ d, Changed st st' r d ∧ s' r = s r + d := by
  have lift : ((Same (stepRefs st l) st' r ∧ s' r = s r) ∨ ∃ d, Changed (stepRefs st l) st' r d ∧ s' r = s r + d) →
      (Same st st' r ∧ s' r = s r) ∨ ∃ d, Changed st st' r d ∧ s' r = s r + d := by
    rintro (⟨h1, h2⟩ | ⟨d, h1, h2⟩)
    · exact Or.inl ⟨same_of_refs _ _ _ _ h1, h2⟩
    · exact Or.inr ⟨d, changed_of_refs _ _ _ _ _ h1, h2⟩
  have excl : ∀ m a b, a ∈ roots → b ∈ roots → a ≠ b → hasRoot a m → isMn b m = false := by
    intro m a b ha hb hne h
    rw [isMn_false_iff]
    exact fun h' => hne (hasRoot_unique m a b ha hb h h')
  unfold step at hst
  cases hex with
  | noInstr h =>
    rw [h] at hst
    simp only [Except.ok.injEq] at hst
    subst hst
    exact Or.inl ⟨⟨rfl, rfl⟩, rfl⟩
  | inc m p r' h hm hop =>
    apply lift
    rw [h] at hst
    simp only [(isMn_iff _ _).mpr hm, if_true, hop, nameOf, Except.ok.injEq] at hst
    subst hst
    exact change_cases _ _ _ _ _ _ (by rintro rfl; rfl)
  | dec m p r' h hm hop =>
    apply lift
    rw [h] at hst
    simp only [excl m "dec" "inc" (by decide) (by decide) (by decide) hm,
      excl m "dec" "add" (by decide) (by decide) (by decide) hm,
      (isMn_iff _ _).mpr hm, if_true, hop, nameOf, Except.ok.injEq, Bool.false_eq_true, if_false] at hst
    subst hst
    exact change_cases _ _ _ _ _ _ (by rintro rfl; rfl)
  | add m p r' v h hm hop =>
    apply lift
    rw [h] at hst
    simp only [excl m "add" "inc" (by decide) (by decide) (by decide) hm,
      (isMn_iff _ _).mpr hm, if_true, hop, stepAddSub, Except.ok.injEq, Bool.false_eq_true, if_false] at hst
    subst hst
    exact change_cases _ _ _ _ _ _ (by rintro rfl; rfl)
  | sub m p r' v h hm hop =>
    apply lift
    rw [h] at hst
    simp only [excl m "sub" "inc" (by decide) (by decide) (by decide) hm,
      excl m "sub" "add" (by decide) (by decide) (by decide) hm,
      excl m "sub" "dec" (by decide) (by decide) (by decide) hm,
      (isMn_iff _ _).mpr hm, if_true, hop, stepAddSub, Except.ok.injEq, Bool.false_eq_true, if_false] at hst
    subst hst
    exact change_cases _ _ _ _ _ _ (by rintro rfl; rfl)
  | lea m p r' mem h hm hop =>
    apply lift
    rw [h] at hst
    simp only [excl m "lea" "inc" (by decide) (by decide) (by decide) hm,
      excl m "lea" "add" (by decide) (by decide) (by decide) hm,
      excl m "lea" "dec" (by decide) (by decide) (by decide) hm,
      excl m "lea" "sub" (by decide) (by decide) (by decide) hm,
      (isMn_iff _ _).mpr hm, if_true, hop, Bool.false_eq_true, if_false] at hst
    by_cases hr : r' = r
    · subst hr
      have hl := hlea m mem p h hm hop
      unfold stepLea at hst
      rcases hl with ⟨hb, hi⟩ | ⟨hb, hi, hsc⟩
      · simp only [hb, hi, nameOf, if_true] at hst
        revert hst
        cases hoff : mem.offset <;> simp only [reduceCtorEq, Except.ok.injEq, false_implies]
        intro hst
        subst hst
        refine change_cases _ _ _ _ _ _ (fun _ => ?_)
        simp [address, hoff, hb, hi, regVal]
        ring
      · simp only [hb, hi, nameOf, if_true] at hst
        revert hst
        cases hoff : mem.offset <;> simp only [reduceCtorEq, Except.ok.injEq, false_implies]
        intro hst
        subst hst
        refine change_cases _ _ _ _ _ _ (fun _ => ?_)
        simp [address, hoff, hb, hi, regVal, hsc]
        ring
    · refine Or.inl ⟨?_, by rw [Function.update_of_ne (Ne.symm hr)]⟩
      unfold stepLea at hst
      simp only [nameOf] at hst
      repeat' split at hst
      all_goals first
        | (simp only [Except.ok.injEq] at hst; subst hst; exact ⟨rfl, rfl⟩)
        | (simp only [Except.ok.injEq] at hst; subst hst; exact change_miss _ _ _ _ hr)
        | simp at hst
  | other _ m h hinc hadd hle hoth =>
    refine lift (Or.inl ⟨?_, ho hoth⟩)
    rw [h] at hst
    obtain ⟨w1, w2, w3⟩ := hwf m h
    have noinc : ∀ root d, (hasRoot "inc" m ∨ hasRoot "dec" m) →
        (match l.operands with
          | [] => Except.error root
          | o :: _ => match nameOf o with
            | .error e => .error e
            | .ok r => .ok ((stepRefs st l).change r d)) = .ok st' → False := by
      intro root d hm hs
      obtain ⟨o, hop, hid⟩ := w1 hm
      rw [hop] at hs
      cases o with
      | reg p r' => exact hinc hm p r' hop
      | ident n => exact hid n rfl
      | imm v => simp [nameOf] at hs
      | mem mm => simp [nameOf] at hs
    have noadd : ∀ f, (hasRoot "add" m ∨ hasRoot "sub" m) → stepAddSub (stepRefs st l) f l.operands = .ok st' →
        Same (stepRefs st l) st' r := by
      intro f hm hs
      obtain ⟨a, b, hop⟩ := w2 hm
      unfold stepAddSub at hs
      rw [hop] at hs
      cases a with
      | imm v =>
        cases b with
        | reg p r' =>
          cases v with
          | none => simp at hs
          | some v => exact absurd hop (hadd hm v p r')
        | _ =>
          simp only [Except.ok.injEq] at hs
          subst hs
          exact ⟨rfl, rfl⟩
      | _ =>
        simp only [Except.ok.injEq] at hs
        subst hs
        exact ⟨rfl, rfl⟩
    simp only at hst
    split at hst
    · rename_i hm
      exact (noinc _ _ (Or.inl ((isMn_iff _ _).mp hm)) hst).elim
    split at hst
    · rename_i hm
      exact noadd _ (Or.inl ((isMn_iff _ _).mp hm)) hst
    split at hst
    · rename_i hm
      exact (noinc _ _ (Or.inr ((isMn_iff _ _).mp hm)) hst).elim
    split at hst
    · rename_i hm
      exact noadd _ (Or.inr ((isMn_iff _ _).mp hm)) hst
    split at hst
    · rename_i hm
      obtain ⟨mem, p, r', hop⟩ := w3 ((isMn_iff _ _).mp hm)
      exact absurd hop (hle ((isMn_iff _ _).mp hm) mem p r')
    · simp only [Except.ok.injEq] at hst
      subst hst
      exact ⟨rfl, rfl⟩

theorem count_mono (st st' : St) (ls : List Line) (r : String) (h : scan st ls = .ok st')
    (hs : ∀ st st' l, l ∈ ls → step st l = .ok st' → st.modified.count r ≤ st'.modified.count r) :
    st.modified.count r ≤ st'.modified.count r := by
  induction ls generalizing st with
  | nil =>
    simp only [scan, Except.ok.injEq] at h
    subst h
    exact le_refl _
  | cons l ls ih =>
    simp only [scan] at h
    cases hl : step st l with
    | error e => rw [hl] at h; simp at h
    | ok st1 =>
      rw [hl] at h
      exact le_trans (hs st st1 l (by simp) hl) (ih st1 h fun a b x hx => hs a b x (by simp [hx]))

theorem run_cons (other : Line → Regs → Regs → Prop) (l : Line) (ls : List Line) (s s' : Regs)
    (h : Run other (l :: ls) s s') : ∃ s1, Exec other l s s1 ∧ Run other ls s1 s' := by
  cases h
  exact ⟨_, by assumption, by assumption⟩

/-- Over a whole block: no recorded change means no change, one recorded change means exactly this change. -/
theorem scan_change (other : Line → Regs → Regs → Prop) (ls : List Line) (r : String)
    (hwf : ∀ l ∈ ls, WellFormed l) (ho : ∀ l ∈ ls, ∀ s s', other l s s' → s' r = s r) (hlea : ∀ l ∈ ls, LeaAdds l r)
    (st st' : St) (s s' : Regs) (h : scan st ls = .ok st') (hrun : Run other ls s s') :
    st.modified.count r ≤ st'.modified.count r ∧
    (st'.modified.count r = st.modified.count r → st'.incs.lookup r = st.incs.lookup r ∧ s' r = s r) ∧
    (st'.modified.count r = st.modified.count r + 1 → ∃ d, st'.incs.lookup r = some d ∧ s' r = s r + d) := by
  induction ls generalizing st s with
  | nil =>
    simp only [scan, Except.ok.injEq] at h
    subst h
    cases hrun
    exact ⟨le_refl _, fun _ => ⟨rfl, rfl⟩, fun h => by omega⟩
  | cons l ls ih =>
    simp only [scan] at h
    cases hl : step st l with
    | error e => rw [hl] at h; simp at h
    | ok st1 =>
      rw [hl] at h
      obtain ⟨s1, hex, hrest⟩ := run_cons other l ls s s' hrun
      obtain ⟨i1, i2, i3⟩ := ih (fun x hx => hwf x (by simp [hx])) (fun x hx => ho x (by simp [hx]))
        (fun x hx => hlea x (by simp [hx])) st1 s1 h hrest
      rcases step_change other st st1 l s s1 r hl hex (hwf l (by simp)) (ho l (by simp) s s1) (hlea l (by simp)) with
        ⟨⟨c1, c2⟩, c3⟩ | ⟨d, ⟨c1, c2⟩, c3⟩
      · rw [c1] at i1 i2 i3
        rw [c2] at i2
        refine ⟨i1, fun h => ?_, fun h => ?_⟩
        · obtain ⟨j1, j2⟩ := i2 h
          exact ⟨j1, by rw [j2, c3]⟩
        · obtain ⟨d, j1, j2⟩ := i3 h
          exact ⟨d, j1, by rw [j2, c3]⟩
      · rw [c1] at i1 i2 i3
        refine ⟨by omega, fun h => by omega, fun h => ?_⟩
        obtain ⟨j1, j2⟩ := i2 h
        exact ⟨d, by rw [j1, c2], by rw [j2, c3]⟩

/-! ### Choice of the register -/

theorem exclude_sub (refs : List Mem) (cands : List String) (r : String) (h : r ∈ exclude refs cands) : r ∈ cands := by
  unfold exclude at h
  induction refs generalizing cands with
  | nil => exact h
  | cons m refs ih =>
    simp only [List.foldl_cons] at h
    have := ih _ h
    split at this
    · exact List.mem_of_mem_filter this
    · exact this

theorem pick_mem (incs : List (String × Int)) (l : List String) (r : String) (h : pick incs l = some r) : r ∈ l := by
  unfold pick at h
  split at h
  · simp at h
  · simp only [Option.some.injEq] at h; simp [h]
  · split at h
    · simp only [Option.some.injEq] at h; simp [h]
    · simp at h

theorem itemsEqual_cons (a : Int) (l : List Int) : itemsEqual (a :: l) = true ↔ ∀ x ∈ l, x = a := by
  unfold itemsEqual
  rw [decide_eq_true_iff, List.tail_cons]
  induction l generalizing a with
  | nil => simp
  | cons b l ih =>
    simp only [List.dropLast_cons_cons, List.cons.injEq, List.mem_cons, forall_eq_or_imp, ih b]
    constructor
    · rintro ⟨h1, h2⟩
      exact ⟨h1, fun x hx => h1 ▸ h2 x hx⟩
    · rintro ⟨h1, h2⟩
      exact ⟨h1, fun x hx => h1.symm ▸ h2 x hx⟩

theorem uses_iff (m : Mem) (r : String) : m.uses r = true ↔ UsesReg m r := by
  simp [Mem.uses, UsesReg]

/-- What a successful deduction means. -/
theorem deduce_some (st : St) (cands : List String) (p : Int) (h : deduce st cands = .ok (some p)) :
    ∃ r k, pick st.incs (exclude st.refs cands) = some r ∧ st.modified.count r = 1 ∧
      (∃ m ∈ st.refs, UsesReg m r) ∧ (∀ m ∈ st.refs, UsesReg m r → m.scale = k) ∧
      p = k * (st.incs.lookup r).getD 0 := by
  unfold deduce at h
  split at h
  · simp at h
  split at h
  · simp at h
  rename_i r hp
  split at h
  · rename_i hc
    simp only at h
    split at h
    · rename_i hi
      split at h
      · simp at h
      · rename_i k rest hk
        simp only [Except.ok.injEq, Option.some.injEq] at h
        rw [hk, itemsEqual_cons] at hi
        refine ⟨r, k, hp, hc, ?_, ?_, h.symm⟩
        · have hne : st.refs.filter (fun m => m.uses r) ≠ [] := by
            intro he
            rw [he] at hk
            simp at hk
          obtain ⟨m, hm⟩ := List.exists_mem_of_ne_nil _ hne
          rw [List.mem_filter] at hm
          exact ⟨m, hm.1, (uses_iff m r).mp hm.2⟩
        · intro m hm hu
          have : m.scale ∈ k :: rest := by
            rw [← hk]
            exact List.mem_map_of_mem (List.mem_filter.mpr ⟨hm, (uses_iff m r).mpr hu⟩)
          rcases List.mem_cons.mp this with h | h
          · exact h
          · exact hi _ h
    · simp at h
  · simp at h

theorem step_keys (st st' : St) (l : Line) (h : step st l = .ok st')
    (hx : ∀ x, x ∈ st.incs.map Prod.fst → x ∈ st.modified) : ∀ x, x ∈ st'.incs.map Prod.fst → x ∈ st'.modified := by
  obtain ⟨k1, k2⟩ := stepRefs_keeps st l
  have hx' : ∀ x, x ∈ (stepRefs st l).incs.map Prod.fst → x ∈ (stepRefs st l).modified := by rw [k1, k2]; exact hx
  have hc : ∀ st : St, (∀ x, x ∈ st.incs.map Prod.fst → x ∈ st.modified) → ∀ r d,
      ∀ x, x ∈ (st.change r d).incs.map Prod.fst → x ∈ (st.change r d).modified := by
    intro st h r d x hx
    simp only [St.change, List.map_cons, List.mem_cons, List.mem_append, List.not_mem_nil, or_false] at hx ⊢
    rcases hx with hx | hx
    · exact Or.inr hx
    · exact Or.inl (h x hx)
  unfold step stepAddSub stepLea at h
  simp only at h
  repeat' split at h
  all_goals first
    | (simp only [Except.ok.injEq] at h; subst h; exact hx)
    | (simp only [Except.ok.injEq] at h; subst h; exact hx')
    | (simp only [Except.ok.injEq] at h; subst h; exact hc _ hx' _ _)
    | simp at h

/-! ### Instructions that add constants -/

theorem mn_excl (m a b : String) (ha : a ∈ roots) (hb : b ∈ roots) (hne : a ≠ b) (h : hasRoot a m) : isMn b m = false := by
  rw [isMn_false_iff]
  exact fun h' => hne (hasRoot_unique m a b ha hb h h')

/-- An instruction that adds a constant is recorded. -/
theorem step_adds (st st' : St) (l : Line) (r : String) (d : Int) (hst : step st l = .ok st') (h : Adds r l d) :
    Changed st st' r d := by
  apply changed_of_refs (l := l)
  unfold step at hst
  cases h with
  | inc m p h hm ho =>
    rw [h] at hst
    simp only [(isMn_iff _ _).mpr hm, if_true, ho, nameOf, Except.ok.injEq] at hst
    subst hst
    exact change_hit _ _ _
  | dec m p h hm ho =>
    rw [h] at hst
    simp only [mn_excl m "dec" "inc" (by decide) (by decide) (by decide) hm,
      mn_excl m "dec" "add" (by decide) (by decide) (by decide) hm,
      (isMn_iff _ _).mpr hm, if_true, ho, nameOf, Except.ok.injEq, Bool.false_eq_true, if_false] at hst
    subst hst
    exact change_hit _ _ _
  | add m p v h hm ho =>
    rw [h] at hst
    simp only [mn_excl m "add" "inc" (by decide) (by decide) (by decide) hm,
      (isMn_iff _ _).mpr hm, if_true, ho, stepAddSub, Except.ok.injEq, Bool.false_eq_true, if_false] at hst
    subst hst
    exact change_hit _ _ _
  | sub m p v h hm ho =>
    rw [h] at hst
    simp only [mn_excl m "sub" "inc" (by decide) (by decide) (by decide) hm,
      mn_excl m "sub" "add" (by decide) (by decide) (by decide) hm,
      mn_excl m "sub" "dec" (by decide) (by decide) (by decide) hm,
      (isMn_iff _ _).mpr hm, if_true, ho, stepAddSub, Except.ok.injEq, Bool.false_eq_true, if_false] at hst
    subst hst
    exact change_hit _ _ _
  | leaBase m p v k h hm ho =>
    rw [h] at hst
    simp only [mn_excl m "lea" "inc" (by decide) (by decide) (by decide) hm,
      mn_excl m "lea" "add" (by decide) (by decide) (by decide) hm,
      mn_excl m "lea" "dec" (by decide) (by decide) (by decide) hm,
      mn_excl m "lea" "sub" (by decide) (by decide) (by decide) hm,
      (isMn_iff _ _).mpr hm, if_true, ho, stepLea, nameOf, Except.ok.injEq, Bool.false_eq_true, if_false] at hst
    subst hst
    exact change_hit _ _ _
  | leaIndex m p v k h hm ho =>
    rw [h] at hst
    simp only [mn_excl m "lea" "inc" (by decide) (by decide) (by decide) hm,
      mn_excl m "lea" "add" (by decide) (by decide) (by decide) hm,
      mn_excl m "lea" "dec" (by decide) (by decide) (by decide) hm,
      mn_excl m "lea" "sub" (by decide) (by decide) (by decide) hm,
      (isMn_iff _ _).mpr hm, if_true, ho, stepLea, nameOf, Except.ok.injEq, Bool.false_eq_true, if_false] at hst
    subst hst
    exact change_hit _ _ _

/-- Nothing else is recorded. -/
theorem step_not_adds (st st' : St) (l : Line) (r : String) (hst : step st l = .ok st') (hwf : WellFormed l)
    (h : ∀ d, ¬ Adds r l d) : Same st st' r := by
  unfold step at hst
  cases hm : l.mnemonic with
  | none =>
    rw [hm] at hst
    simp only [Except.ok.injEq] at hst
    subst hst
    exact ⟨rfl, rfl⟩
  | some m =>
    rw [hm] at hst
    apply same_of_refs (l := l)
    obtain ⟨w1, w2, w3⟩ := hwf m hm
    simp only at hst
    split at hst
    · rename_i hr
      rw [isMn_iff] at hr
      obtain ⟨o, ho, hid⟩ := w1 (Or.inl hr)
      rw [ho] at hst
      cases o with
      | reg p r' =>
        simp only [nameOf, Except.ok.injEq] at hst
        subst hst
        refine change_miss _ _ _ _ ?_
        rintro rfl
        exact h _ (.inc l m p hm hr ho)
      | ident n => exact absurd rfl (hid n)
      | imm v => simp [nameOf] at hst
      | mem mm => simp [nameOf] at hst
    have addsub : ∀ f : Int → Int, ∀ root, root = "add" ∨ root = "sub" → hasRoot root m →
        (∀ v p, l.operands = [.imm (some v), .reg p r] → Adds r l (f v)) →
        stepAddSub (stepRefs st l) f l.operands = .ok st' → Same (stepRefs st l) st' r := by
      intro f root hroot hr hA hs
      obtain ⟨a, b, ho⟩ := w2 (by rcases hroot with rfl | rfl; exact Or.inl hr; exact Or.inr hr)
      unfold stepAddSub at hs
      rw [ho] at hs
      cases a with
      | imm v =>
        cases b with
        | reg p r' =>
          cases v with
          | none => simp at hs
          | some v =>
            simp only [Except.ok.injEq] at hs
            subst hs
            refine change_miss _ _ _ _ ?_
            rintro rfl
            exact h _ (hA v p ho)
        | _ =>
          simp only [Except.ok.injEq] at hs
          subst hs
          exact ⟨rfl, rfl⟩
      | _ =>
        simp only [Except.ok.injEq] at hs
        subst hs
        exact ⟨rfl, rfl⟩
    split at hst
    · rename_i hr
      rw [isMn_iff] at hr
      exact addsub id "add" (Or.inl rfl) hr (fun v p ho => .add l m p v hm hr ho) hst
    split at hst
    · rename_i hr
      rw [isMn_iff] at hr
      obtain ⟨o, ho, hid⟩ := w1 (Or.inr hr)
      rw [ho] at hst
      cases o with
      | reg p r' =>
        simp only [nameOf, Except.ok.injEq] at hst
        subst hst
        refine change_miss _ _ _ _ ?_
        rintro rfl
        exact h _ (.dec l m p hm hr ho)
      | ident n => exact absurd rfl (hid n)
      | imm v => simp [nameOf] at hst
      | mem mm => simp [nameOf] at hst
    split at hst
    · rename_i hr
      rw [isMn_iff] at hr
      exact addsub _ "sub" (Or.inr rfl) hr (fun v p ho => .sub l m p v hm hr ho) hst
    split at hst
    · rename_i hr
      rw [isMn_iff] at hr
      obtain ⟨mem, p, r', ho⟩ := w3 hr
      obtain ⟨off, base, index, scale⟩ := mem
      rw [ho] at hst
      unfold stepLea at hst
      simp only [nameOf] at hst
      match base, index with
      | none, none =>
        simp only [Except.ok.injEq] at hst
        subst hst
        exact ⟨rfl, rfl⟩
      | some _, some _ =>
        simp only [Except.ok.injEq] at hst
        subst hst
        exact ⟨rfl, rfl⟩
      | some b, none =>
        simp only at hst
        split at hst
        · rename_i hb
          subst hb
          cases off with
          | imm v =>
            simp only [Except.ok.injEq] at hst
            subst hst
            refine change_miss _ _ _ _ ?_
            rintro rfl
            exact h _ (.leaBase l m p v scale hm hr ho)
          | _ => simp at hst
        · simp only [Except.ok.injEq] at hst
          subst hst
          exact ⟨rfl, rfl⟩
      | none, some b =>
        simp only at hst
        split at hst
        · rename_i hb
          subst hb
          cases off with
          | imm v =>
            simp only [Except.ok.injEq] at hst
            subst hst
            refine change_miss _ _ _ _ ?_
            rintro rfl
            exact h _ (.leaIndex l m p v scale hm hr ho)
          | _ => simp at hst
        · simp only [Except.ok.injEq] at hst
          subst hst
          exact ⟨rfl, rfl⟩
    · simp only [Except.ok.injEq] at hst
      subst hst
      exact ⟨rfl, rfl⟩

/-- A register that was recorded once is changed by exactly one instruction. -/
theorem scan_adds (ls : List Line) (r : String) (hwf : ∀ l ∈ ls, WellFormed l) (st st' : St) (h : scan st ls = .ok st') :
    st.modified.count r ≤ st'.modified.count r ∧
    (st'.modified.count r = st.modified.count r → st'.incs.lookup r = st.incs.lookup r ∧ ∀ l ∈ ls, ∀ d, ¬ Adds r l d) ∧
    (st'.modified.count r = st.modified.count r + 1 → ∃ d pre l post, ls = pre ++ l :: post ∧ Adds r l d ∧
      st'.incs.lookup r = some d ∧ ∀ l' ∈ pre ++ post, ∀ d', ¬ Adds r l' d') := by
  induction ls generalizing st with
  | nil =>
    simp only [scan, Except.ok.injEq] at h
    subst h
    exact ⟨le_refl _, fun _ => ⟨rfl, by simp⟩, fun h => by omega⟩
  | cons l ls ih =>
    simp only [scan] at h
    cases hl : step st l with
    | error e => rw [hl] at h; simp at h
    | ok st1 =>
      rw [hl] at h
      obtain ⟨i1, i2, i3⟩ := ih (fun x hx => hwf x (by simp [hx])) st1 h
      by_cases hA : ∃ d, Adds r l d
      · obtain ⟨d, hA⟩ := hA
        obtain ⟨c1, c2⟩ := step_adds st st1 l r d hl hA
        rw [c1] at i1 i2 i3
        refine ⟨by omega, fun h => by omega, fun h => ?_⟩
        obtain ⟨j1, j2⟩ := i2 h
        exact ⟨d, [], l, ls, rfl, hA, by rw [j1, c2], by simpa using j2⟩
      · have hA' : ∀ d, ¬ Adds r l d := fun d hd => hA ⟨d, hd⟩
        obtain ⟨c1, c2⟩ := step_not_adds st st1 l r hl (hwf l (by simp)) hA'
        rw [c1] at i1 i2 i3
        rw [c2] at i2
        refine ⟨i1, fun h => ?_, fun h => ?_⟩
        · obtain ⟨j1, j2⟩ := i2 h
          refine ⟨j1, fun x hx => ?_⟩
          rcases List.mem_cons.mp hx with rfl | hx
          · exact hA'
          · exact j2 x hx
        · obtain ⟨d, pre, x, post, j1, j2, j3, j4⟩ := i3 h
          refine ⟨d, l :: pre, x, post, by rw [j1]; rfl, j2, j3, fun y hy => ?_⟩
          rcases List.mem_cons.mp hy with rfl | hy
          · exact hA'
          · exact j4 y hy

end Verif.Asm
