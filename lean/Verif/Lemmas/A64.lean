import Verif.Spec.A64
import Mathlib.Tactic.Ring
import Mathlib.Tactic.Linarith
import Mathlib.Algebra.Order.BigOperators.Group.List
import Mathlib.Algebra.BigOperators.Group.List.Basic

/-!
Lemmas for C93.
-/

namespace Verif.A64

/-! ### Folds -/

theorem foldlM_inv {α σ : Type} (P : σ → Prop) (f : σ → α → Except String σ) (l : List α) (s s' : σ)
    (hf : ∀ a ∈ l, ∀ t t', P t → f t a = .ok t' → P t') (hs : P s) (h : l.foldlM f s = .ok s') : P s' := by
  induction l generalizing s with
  | nil => simp only [List.foldlM_nil, pure, Except.pure, Except.ok.injEq] at h; exact h ▸ hs
  | cons a l ih =>
    rw [List.foldlM_cons] at h
    cases hfa : f s a with
    | error e => rw [hfa] at h; cases h
    | ok t =>
      rw [hfa] at h
      exact ih t (fun b hb => hf b (by simp [hb])) (hf a (by simp) s t hs hfa) h

theorem mem_mems (m : Mem) (ops : List Operand) : m ∈ mems ops ↔ .mem m ∈ ops := by
  unfold mems
  rw [List.mem_filterMap]
  constructor
  · rintro ⟨o, ho, h⟩
    cases o <;> simp_all
  · intro h; exact ⟨_, h, rfl⟩

/-! ### Writers -/

theorem unique_index (block : List Line) (c : Line → Nat) (h : (block.map c).sum = 1) (p q : Nat) (hp : p < block.length)
    (hq : q < block.length) (cp : 0 < c block[p]) (cq : 0 < c block[q]) : p = q := by
  have le : ∀ (l : List Line) (i : Nat) (hi : i < l.length), c l[i] ≤ (l.map c).sum := by
    intro l
    induction l with
    | nil => intro i hi; simp at hi
    | cons x l ih =>
      intro i hi
      cases i with
      | zero => simp
      | succ i => have := ih i (by simpa using hi); simp only [List.getElem_cons_succ, List.map_cons, List.sum_cons]; omega
  induction block generalizing p q with
  | nil => simp at hp
  | cons x l ih =>
    simp only [List.map_cons, List.sum_cons] at h
    cases p with
    | zero =>
      cases q with
      | zero => rfl
      | succ q =>
        have := le l q (by simpa using hq)
        simp only [List.getElem_cons_zero, List.getElem_cons_succ] at cp cq
        omega
    | succ p =>
      have := le l p (by simpa using hp)
      simp only [List.getElem_cons_succ] at cp
      cases q with
      | zero => simp only [List.getElem_cons_zero] at cq; omega
      | succ q =>
        simp only [List.getElem_cons_succ] at cq
        rw [ih (by omega) p q (by simpa using hp) (by simpa using hq) cp cq]

theorem lineCount_le (block : List Line) (r : String) (l : Line) (h : l ∈ block) : lineCount l r ≤ writeCount block r :=
  List.single_le_sum (by simp) _ (List.mem_map_of_mem h)

theorem count_zero (block : List Line) (r : String) (h : ¬ Modified block r) (l : Line) (hl : l ∈ block) : lineCount l r = 0 := by
  have := lineCount_le block r l hl
  unfold Modified at h
  omega

/-! ### Semantics -/

theorem exec_frame (l : Line) (hw : WellFormed l) (s s' : Regs) (h : Exec l s s') (r : String) (hr : lineCount l r = 0) :
    s' r = s r := by
  have key : ∀ mn d a b, l.mnemonic = some mn → mn ∈ ["add", "adds", "sub", "subs", "lsl"] → l.operands = [.reg d, a, b] →
      ∀ x, Function.update s (norm d) x r = s r := by
    intro mn d a b h1 h2 h3 x
    obtain ⟨d', a', b', h4, h5⟩ := hw.three mn h1 h2
    rw [h3] at h4
    simp only [List.cons.injEq, Operand.reg.injEq] at h4
    obtain ⟨rfl, -⟩ := h4
    rw [Function.update_of_ne]
    rintro rfl; omega
  unfold Exec at h
  split at h
  · rw [h]
  · rename_i h1 h2
    split_ifs at h with h3 h4 h5
    · rw [h]; exact key _ _ _ _ h1 (by rcases h3 with rfl | rfl <;> simp) h2 _
    · rw [h]; exact key _ _ _ _ h1 (by rcases h4 with rfl | rfl <;> simp) h2 _
    · rw [h]; exact key _ _ _ _ h1 (by rcases h5 with ⟨rfl, -⟩; simp) h2 _
    · exact h.1 r hr
  · rename_i h1 h2
    split_ifs at h with h3 h4
    · rw [h]; exact key _ _ _ _ h1 (by rcases h3 with rfl | rfl <;> simp) h2 _
    · rw [h]; exact key _ _ _ _ h1 (by rcases h4 with rfl | rfl <;> simp) h2 _
    · exact h.1 r hr
  · exact h.1 r hr

/-- Lines between two positions that do not write the register. -/
theorem keep (block : List Line) (hw : ∀ l ∈ block, WellFormed l) (n : Nat) (st : Nat → Nat → Regs) (hl : Loop block n st)
    (k : Nat) (hk : k < n) (r : String) (p q : Nat) (hpq : p ≤ q) (hq : q ≤ block.length)
    (h : ∀ i (hi : i < block.length), p ≤ i → i < q → lineCount block[i] r = 0) : st k q r = st k p r := by
  induction q, hpq using Nat.le_induction with
  | base => rfl
  | succ q hpq ih =>
    have hq' : q < block.length := by omega
    rw [exec_frame _ (hw _ (List.getElem_mem hq')) _ _ (hl.line k hk q hq') r (h q hq' hpq (by omega))]
    exact ih (by omega) fun i hi h1 h2 => h i hi h1 (by omega)

theorem moves_constant (block : List Line) (hw : ∀ l ∈ block, WellFormed l) (r : String) (h : ¬ Modified block r) :
    Moves block r 0 := by
  refine ⟨0, fun n st hl k _ hk p hp => ?_⟩
  have h0 : ∀ i (hi : i < block.length), lineCount block[i] r = 0 := fun i hi => count_zero block r h _ (List.getElem_mem hi)
  have e1 := keep block hw n st hl (k + 1) hk r 0 p (by omega) hp fun i hi _ _ => h0 i hi
  have e2 := keep block hw n st hl k (by omega) r 0 p (by omega) hp fun i hi _ _ => h0 i hi
  have e3 := keep block hw n st hl k (by omega) r 0 block.length (by omega) le_rfl fun i hi _ _ => h0 i hi
  rw [e1, e2, hl.again k hk, e3]
  ring

theorem moves_add (block : List Line) (hw : ∀ l ∈ block, WellFormed l) (r : String) (d : Int) (h1 : writeCount block r = 1)
    (p0 : Nat) (hp0 : p0 < block.length) (hc : 0 < lineCount block[p0] r)
    (he : ∀ s s', Exec block[p0] s s' → s' r = s r + d) : Moves block r d := by
  have h0 : ∀ i (hi : i < block.length), i ≠ p0 → lineCount block[i] r = 0 := by
    intro i hi hne
    by_contra hn
    exact hne (unique_index block (lineCount · r) h1 i p0 hi hp0 (by omega) hc)
  refine ⟨0, fun n st hl k _ hk p hp => ?_⟩
  have e : ∀ k < n, ∀ p ≤ block.length, st k p r = st k 0 r + if p0 < p then d else 0 := by
    intro k hk p hp
    have a := fun h => keep block hw n st hl k hk r 0 (min p p0) (by omega) (by omega) h
    have a := a fun i hi _ _ => h0 i hi (by omega)
    by_cases hlt : p0 < p
    · rw [if_pos hlt]
      rw [min_eq_right hlt.le] at a
      have b := keep block hw n st hl k hk r (p0 + 1) p (by omega) hp fun i hi _ _ => h0 i hi (by omega)
      rw [b, he _ _ (hl.line k hk p0 hp0), a]
    · rw [if_neg hlt]
      rw [min_eq_left (by omega)] at a
      omega
  rw [e (k + 1) hk p hp, e k (by omega) p hp, hl.again k hk, e k (by omega) block.length le_rfl, if_pos hp0]
  ring

theorem moves_derived (block : List Line) (hw : ∀ l ∈ block, WellFormed l) (r : String) (d : Int) (h1 : writeCount block r = 1)
    (p0 : Nat) (hp0 : p0 < block.length) (hc : 0 < lineCount block[p0] r) (warm : Nat)
    (he : ∀ n st, Loop block n st → ∀ k, warm ≤ k → k + 1 < n → st (k + 1) (p0 + 1) r - st k (p0 + 1) r = d) :
    Moves block r d := by
  have h0 : ∀ i (hi : i < block.length), i ≠ p0 → lineCount block[i] r = 0 := by
    intro i hi hne
    by_contra hn
    exact hne (unique_index block (lineCount · r) h1 i p0 hi hp0 (by omega) hc)
  refine ⟨warm + 1, fun n st hl k hk hkn p hp => ?_⟩
  have after : ∀ k, warm ≤ k → k + 1 < n → ∀ p ≤ block.length, p0 < p → st (k + 1) p r - st k p r = d := by
    intro k hk hkn p hp hlt
    rw [keep block hw n st hl (k + 1) hkn r (p0 + 1) p (by omega) hp fun i hi _ _ => h0 i hi (by omega),
      keep block hw n st hl k (by omega) r (p0 + 1) p (by omega) hp fun i hi _ _ => h0 i hi (by omega)]
    exact he n st hl k hk hkn
  by_cases hlt : p0 < p
  · exact after k (by omega) hkn p hp hlt
  · obtain ⟨k, rfl⟩ : ∃ j, k = j + 1 := ⟨k - 1, by omega⟩
    rw [keep block hw n st hl (k + 1 + 1) hkn r 0 p (by omega) hp fun i hi _ _ => h0 i hi (by omega),
      keep block hw n st hl (k + 1) (by omega) r 0 p (by omega) hp fun i hi _ _ => h0 i hi (by omega),
      hl.again (k + 1) hkn, hl.again k (by omega)]
    exact after k (by omega) (by omega) _ le_rfl hp0

/-! ### Modified registers -/

/-- `modified_registers` for a block. -/
def modsOf (block : List Line) : Key → Option Int
  | none => none
  | some r => if writeCount block r = 0 then none else some (writeCount block r)

theorem modsOf_isSome (block : List Line) (r : String) : (modsOf block (some r)).isSome = true ↔ Modified block r := by
  simp only [modsOf, Modified]
  split
  · rename_i h; simp [h]
  · rename_i h; simp only [Option.isSome_some, true_iff]; omega

theorem fold_countDst (l : List Operand) (m0 : Key → Option Int) (k : Key) :
    l.foldl countDst m0 k =
      if (l.filter (Operand.named k)).length = 0 then m0 k
      else some ((m0 k).getD 0 + (l.filter (Operand.named k)).length) := by
  induction l generalizing m0 with
  | nil => simp
  | cons o l ih =>
    rw [List.foldl_cons, ih]
    cases o with
    | reg x =>
      by_cases hx : some (norm x) = k
      · subst hx
        simp only [countDst, bump, Function.update_self, List.filter_cons, Operand.named, decide_true, if_true,
          List.length_cons]
        split
        · simp_all
        · simp; ring
      · simp only [countDst, bump, Function.update_of_ne (Ne.symm hx), List.filter_cons, Operand.named, hx, decide_false,
          Bool.false_eq_true, if_false]
    | imm v => simp [countDst, Operand.named]
    | mem m => simp [countDst, Operand.named]
    | other => simp [countDst, Operand.named]

theorem fold_countMem (l : List Mem) (st st' : St) (h : l.foldlM countMem st = .ok st') (k : Key) :
    st'.mods k = if (l.filter fun m => m.writesBack && decide (m.base.map norm = k)).length = 0 then st.mods k
      else some ((st.mods k).getD 0 + (l.filter fun m => m.writesBack && decide (m.base.map norm = k)).length) := by
  induction l generalizing st with
  | nil => simp only [List.foldlM_nil, pure, Except.pure, Except.ok.injEq] at h; simp [h]
  | cons m l ih =>
    rw [List.foldlM_cons] at h
    cases hfa : countMem st m with
    | error e => rw [hfa] at h; cases h
    | ok t =>
      rw [hfa] at h
      rw [ih t h]
      unfold countMem at hfa
      by_cases hwb : m.writesBack = true
      · rw [if_pos hwb] at hfa
        cases ha : m.amount with
        | error e => rw [ha] at hfa; cases hfa
        | ok v =>
          rw [ha] at hfa
          simp only [bind, Except.bind, Except.ok.injEq] at hfa
          subst hfa
          by_cases hx : m.base.map norm = k
          · subst hx
            simp only [bump, Function.update_self, List.filter_cons, hwb, Bool.true_and, decide_true, if_true, List.length_cons]
            split
            · simp_all
            · simp; ring
          · simp only [bump, Function.update_of_ne (Ne.symm hx), List.filter_cons, hwb, Bool.true_and, hx, decide_false,
              Bool.false_eq_true, if_false]
      · rw [if_neg hwb] at hfa
        simp only [Except.ok.injEq] at hfa
        subst hfa
        simp only [List.filter_cons, hwb, Bool.false_and, Bool.false_eq_true, if_false]

theorem writeCount_eq (block : List Line) (r : String) : writeCount block r =
    ((block.flatMap (·.dst)).filter (Operand.named (some r))).length +
    ((mems (block.flatMap (·.operands))).filter fun m => m.writesBack && decide (m.base.map norm = some r)).length := by
  unfold writeCount
  induction block with
  | nil => simp [mems]
  | cons l block ih =>
    have e : ∀ a b, mems (a ++ b) = mems a ++ mems b := by intro a b; simp [mems]
    rw [List.map_cons, List.sum_cons, ih]
    simp only [List.flatMap_cons, e, List.filter_append, List.length_append, lineCount]
    omega

theorem first_mods (block : List Line) (hw : ∀ l ∈ block, WellFormed l) (st st' : St)
    (h0 : st.mods = (block.flatMap (·.dst)).foldl countDst fun _ => none)
    (h : (mems (block.flatMap (·.operands))).foldlM countMem st = .ok st') : st'.mods = modsOf block := by
  funext k
  rw [fold_countMem _ _ _ h k, h0, fold_countDst]
  cases k with
  | none =>
    have e1 : ((block.flatMap (·.dst)).filter (Operand.named none)) = [] := by
      rw [List.filter_eq_nil_iff]
      intro o _
      cases o <;> simp [Operand.named]
    have e2 : ((mems (block.flatMap (·.operands))).filter fun m => m.writesBack && decide (m.base.map norm = none)) = [] := by
      rw [List.filter_eq_nil_iff]
      intro m hm
      rw [mem_mems, List.mem_flatMap] at hm
      obtain ⟨l, hl, hm⟩ := hm
      simp only [Bool.and_eq_true, decide_eq_true_eq, not_and]
      intro hwb
      obtain ⟨r, v, hv⟩ := (hw l hl).update m ((mem_mems m _).2 hm) hwb
      cases hv <;> rename_i hb _ <;> simp [hb]
    rw [e1, e2]
    rfl
  | some r =>
    simp only [modsOf]
    have := writeCount_eq block r
    generalize ((block.flatMap (·.dst)).filter (Operand.named (some r))).length = a at *
    generalize ((mems (block.flatMap (·.operands))).filter fun m => m.writesBack && decide (m.base.map norm = some r)).length = b at *
    rw [this]
    by_cases ha : a = 0 <;> by_cases hb : b = 0 <;> simp [ha, hb]

/-! ### First increments -/

/-- Origin of an increment of the first pass. -/
def Source (block : List Line) (k : Key) (d : Int) : Prop :=
  ∃ r p, ∃ h : p < block.length, k = some r ∧ 0 < lineCount block[p] r ∧
    (lineCount block[p] r = 1 → ∀ s s', Exec block[p] s s' → s' r = s r + d)

theorem update_inv {P : Key → Int → Prop} (incs : Key → Option Int) (k : Key) (v : Int)
    (h : ∀ k d, incs k = some d → P k d) (hk : P k v) : ∀ k' d, Function.update incs k (some v) k' = some d → P k' d := by
  intro k' d hd
  by_cases hkk : k' = k
  · subst hkk
    rw [Function.update_self, Option.some.injEq] at hd
    exact hd ▸ hk
  · rw [Function.update_of_ne hkk] at hd
    exact h k' d hd

theorem countMem_source (block : List Line) (hw : ∀ l ∈ block, WellFormed l) (m : Mem) (hm : m ∈ mems (block.flatMap (·.operands)))
    (t t' : St) (hP : ∀ k d, t.incs k = some d → Source block k d) (h : countMem t m = .ok t') :
    ∀ k d, t'.incs k = some d → Source block k d := by
  unfold countMem at h
  by_cases hwb : m.writesBack = true
  · rw [if_pos hwb] at h
    cases ha : m.amount with
    | error e => rw [ha] at h; cases h
    | ok v =>
      rw [ha] at h
      simp only [bind, Except.bind, Except.ok.injEq] at h
      subst h
      rw [mem_mems, List.mem_flatMap] at hm
      obtain ⟨l, hl, hm⟩ := hm
      have hm' := (mem_mems m _).2 hm
      obtain ⟨r, v', hv⟩ := (hw l hl).update m hm' hwb
      have hb : m.base.map norm = some r := by cases hv <;> rename_i hb _ <;> simp [hb]
      have hvv : v = v' := by
        unfold Mem.amount at ha
        cases hv with
        | pre b v hp hb ho => rw [if_pos hp, ho] at ha; simpa using ha.symm
        | post b v hp hb ho => rw [if_neg (by simp [hp]), ho] at ha; simpa using ha.symm
      subst hvv
      apply update_inv t.incs _ v hP
      obtain ⟨p, hp, rfl⟩ := List.getElem_of_mem hl
      have hpos : 0 < lineCount block[p] r := by
        unfold lineCount
        have : 0 < ((mems block[p].operands).filter fun m => m.writesBack && decide (m.base.map norm = some r)).length :=
          List.length_pos_of_mem (List.mem_filter.2 ⟨hm', by simp [hwb, hb]⟩)
        omega
      refine ⟨r, p, hp, hb, hpos, fun h1 s s' he => ?_⟩
      unfold Exec at he
      split at he
      · rename_i h2; have := (hw _ hl).silent h2 r; omega
      · rename_i h2; rw [h2] at hm; simp at hm
      · rename_i h2; rw [h2] at hm; simp at hm
      · exact he.2 m hm' r v hv h1
  · rw [if_neg hwb] at h
    simp only [Except.ok.injEq] at h
    exact h ▸ hP

theorem stepImm_source (block : List Line) (hw : ∀ l ∈ block, WellFormed l) (l : Line) (hl : l ∈ block)
    (t t' : Key → Option Int) (hP : ∀ k d, t k = some d → Source block k d) (h : stepImm t l = .ok t') :
    ∀ k d, t' k = some d → Source block k d := by
  unfold stepImm at h
  split at h
  · simp only [Except.ok.injEq] at h; exact h ▸ hP
  rename_i mn hmn
  simp only at h
  split_ifs at h with h1 h2
  · obtain ⟨d, a, b, ho, hc⟩ := (hw l hl).three mn hmn (by simp only [List.mem_cons, List.not_mem_nil, or_false] at h1 ⊢; tauto)
    rw [ho] at h
    simp only at h
    split_ifs at h with hab
    · subst hab
      cases b with
      | imm v =>
        simp only [Except.ok.injEq] at h
        subst h
        obtain ⟨p, hp, rfl⟩ := List.getElem_of_mem hl
        apply update_inv t _ v hP
        refine ⟨norm d, p, hp, rfl, hc, fun _ s s' he => ?_⟩
        unfold Exec at he
        rw [hmn, ho] at he
        simp only [List.mem_cons, List.not_mem_nil, or_false] at h1
        simp only [h1, if_true] at he
        rw [he, Function.update_self]
      | reg r => simp only [Except.ok.injEq] at h; exact h ▸ hP
      | mem m => simp only [Except.ok.injEq] at h; exact h ▸ hP
      | other => simp only [Except.ok.injEq] at h; exact h ▸ hP
    · simp only [Except.ok.injEq] at h; exact h ▸ hP
  · obtain ⟨d, a, b, ho, hc⟩ := (hw l hl).three mn hmn (by simp only [List.mem_cons, List.not_mem_nil, or_false] at h2 ⊢; tauto)
    rw [ho] at h
    simp only at h
    split_ifs at h with hab
    · subst hab
      cases b with
      | imm v =>
        simp only [Except.ok.injEq] at h
        subst h
        split
        · rename_i he; exact update_inv t _ _ hP (hP _ _ he)
        · exact hP
      | reg r => simp only [Except.ok.injEq] at h; exact h ▸ hP
      | mem m => simp only [Except.ok.injEq] at h; exact h ▸ hP
      | other => simp only [Except.ok.injEq] at h; exact h ▸ hP
    · simp only [Except.ok.injEq] at h; exact h ▸ hP
  · simp only [Except.ok.injEq] at h; exact h ▸ hP

theorem first_spec (block : List Line) (hw : ∀ l ∈ block, WellFormed l) (st : St) (refs : List Mem)
    (h : first block = .ok (st, refs)) : st.mods = modsOf block ∧ (∀ k d, st.incs k = some d → Source block k d) ∧
      refs = (block.foldl (stepRefs (modsOf block)) ([], false)).1 := by
  unfold first at h
  simp only [bind, Except.bind] at h
  split at h
  · cases h
  · rename_i st1 h1
    split at h
    · cases h
    · rename_i incs h2
      simp only [Except.ok.injEq, Prod.mk.injEq] at h
      obtain ⟨rfl, rfl⟩ := h
      have hm := first_mods block hw _ _ rfl h1
      refine ⟨hm, ?_, by rw [hm]⟩
      have i1 := foldlM_inv (fun t : St => ∀ k d, t.incs k = some d → Source block k d) countMem _ _ _
        (fun m hm t t' hP he => countMem_source block hw m hm t t' hP he) (by simp) h1
      exact foldlM_inv (fun t => ∀ k d, t k = some d → Source block k d) stepImm _ _ _
        (fun l hl t t' hP he => stepImm_source block hw l hl t t' hP he) i1 h2

/-! ### Derived increments -/

/-- A correct increment. -/
def Good (block : List Line) (k : Key) (d : Int) : Prop := ∃ r, k = some r ∧ Modified block r ∧ Moves block r d

theorem good_of_source (block : List Line) (hw : ∀ l ∈ block, WellFormed l) (k : Key) (d : Int) (h : Source block k d)
    (h1 : (modsOf block k).getD 0 = 1) : Good block k d := by
  obtain ⟨r, p, hp, rfl, hpos, he⟩ := h
  have hle := lineCount_le block r _ (List.getElem_mem hp)
  simp only [modsOf] at h1
  split at h1
  · simp at h1
  · have hc : writeCount block r = 1 := by simpa using h1
    exact ⟨r, rfl, by unfold Modified; omega, moves_add block hw r d hc p hp hpos (he (by omega))⟩

theorem good_shift (block : List Line) (hw : ∀ l ∈ block, WellFormed l) (ht : Tidy block) (l : Line) (hl : l ∈ block)
    (hm : l.mnemonic = some "lsl") (rd ra : Reg) (v : Int) (hv : 0 ≤ v) (ho : l.operands = [.reg rd, .reg ra, .imm v]) (d : Int)
    (hg : Good block (some (norm ra)) d) : Good block (some (norm rd)) (d * 2 ^ v.toNat) := by
  obtain ⟨d', a', b', ho', hc⟩ := (hw l hl).three "lsl" hm (by simp)
  rw [ho] at ho'
  simp only [List.cons.injEq, Operand.reg.injEq] at ho'
  obtain ⟨rfl, -⟩ := ho'
  have h1 := ht.shifts l hl hm rd ra v ho
  obtain ⟨r, hr, -, warm, hmv⟩ := hg
  simp only [Option.some.injEq] at hr
  subst hr
  obtain ⟨p, hp, rfl⟩ := List.getElem_of_mem hl
  refine ⟨norm rd, rfl, by unfold Modified; omega, moves_derived block hw _ _ h1 p hp hc warm ?_⟩
  intro n st hloop k hk hkn
  have e : ∀ k < n, st k (p + 1) (norm rd) = st k p (norm ra) * 2 ^ v.toNat := by
    intro k hk
    have := hloop.line k hk p hp
    unfold Exec at this
    rw [hm, ho] at this
    simp [hv] at this
    rw [this, Function.update_self]
  rw [e (k + 1) hkn, e k (by omega), ← hmv n st hloop k hk hkn p (by omega)]
  ring

theorem shiftTo_good (block : List Line) (hw : ∀ l ∈ block, WellFormed l) (ht : Tidy block) (l : Line) (hl : l ∈ block)
    (hm : l.mnemonic = some "lsl") (a : Operand) (ra : Reg) (v : Int) (rest : List Operand)
    (ho : l.operands = a :: .reg ra :: .imm v :: rest)
    (t t' : Key → Option Int) (d : Int) (hd : t (some (norm ra)) = some d)
    (hP : ∀ k d, t k = some d → Good block k d) (h : shiftTo t d a v = .ok t') : ∀ k d, t' k = some d → Good block k d := by
  obtain ⟨rd, a', b', ho', -⟩ := (hw l hl).three "lsl" hm (by simp)
  rw [ho] at ho'
  simp only [List.cons.injEq] at ho'
  obtain ⟨rfl, rfl, rfl, rfl⟩ := ho'
  unfold shiftTo at h
  simp only at h
  split_ifs at h with hv
  simp only [Except.ok.injEq] at h
  subst h
  exact update_inv t _ _ hP (good_shift block hw ht l hl hm rd ra v (by omega) ho d (hP _ _ hd))

theorem stepLsl_good (block : List Line) (hw : ∀ l ∈ block, WellFormed l) (ht : Tidy block) (l : Line) (hl : l ∈ block)
    (t t' : Key → Option Int) (hP : ∀ k d, t k = some d → Good block k d) (h : stepLsl t l = .ok t') :
    ∀ k d, t' k = some d → Good block k d := by
  unfold stepLsl at h
  split_ifs at h with hm
  · split at h
    · rename_i a b v rest ho
      split at h
      · rename_i rb
        split at h
        · rename_i d hd
          exact shiftTo_good block hw ht l hl hm a rb v rest ho t t' d hd hP h
        · simp only [Except.ok.injEq] at h; exact h ▸ hP
      · cases h
    · simp only [Except.ok.injEq] at h; exact h ▸ hP
    · cases h
  · simp only [Except.ok.injEq] at h; exact h ▸ hP

theorem stepLast_good (block : List Line) (hw : ∀ l ∈ block, WellFormed l) (ht : Tidy block) (new : List String) (l : Line)
    (hl : l ∈ block) (t t' : Key → Option Int) (hP : ∀ k d, t k = some d → Good block k d) (h : stepLast new t l = .ok t') :
    ∀ k d, t' k = some d → Good block k d := by
  unfold stepLast at h
  split_ifs at h with hm
  · split at h
    · rename_i a rb v rest ho
      split at h
      · rename_i d hd
        split_ifs at h
        · exact shiftTo_good block hw ht l hl hm a rb v rest ho t t' d hd hP h
        · simp only [Except.ok.injEq] at h; exact h ▸ hP
      · simp only [Except.ok.injEq] at h; exact h ▸ hP
    · simp only [Except.ok.injEq] at h; exact h ▸ hP
    · cases h
  · simp only [Except.ok.injEq] at h; exact h ▸ hP

/-- Invariant of the third pass. -/
def Inv (block : List Line) (st : St) : Prop :=
  (∀ k d, st.incs k = some d → Good block k d) ∧ ∀ r, Modified block r → (st.mods (some r)).isSome = true

theorem attempt_good (block : List Line) (hw : ∀ l ∈ block, WellFormed l) (p : Nat) (hp : p < block.length) (rd ri rj : Reg)
    (factor c : Int) (h1 : writeCount block (norm rd) = 1) (hc : 0 < lineCount block[p] (norm rd))
    (hval : ∀ s s', Exec block[p] s s' → s' (norm rd) = factor * s (norm ri) + c * s (norm rj))
    (t t' : St × List String) (hP : Inv block t.1) (h : attempt factor (.reg rd) ri rj t = .ok t') : Inv block t'.1 := by
  unfold attempt at h
  split at h
  · rename_i d hd hj
    simp only [Except.ok.injEq] at h
    subst h
    have hun : ¬ Modified block (norm rj) := fun hmod => by have := hP.2 _ hmod; rw [hj] at this; cases this
    obtain ⟨r, hr, -, warm, hmv⟩ := hP.1 _ _ hd
    simp only [Option.some.injEq] at hr
    subst hr
    obtain ⟨warm', hmv'⟩ := moves_constant block hw _ hun
    refine ⟨update_inv t.1.incs _ _ hP.1 ⟨norm rd, rfl, by unfold Modified; omega,
      moves_derived block hw _ _ h1 p hp hc (max warm warm') ?_⟩, ?_⟩
    · intro n st hloop k hk hkn
      rw [hval _ _ (hloop.line (k + 1) hkn p hp), hval _ _ (hloop.line k (by omega) p hp)]
      have e1 := hmv n st hloop k (by omega) hkn p (by omega)
      have e2 := hmv' n st hloop k (by omega) hkn p (by omega)
      have : factor * st (k + 1) p (norm ri) + c * st (k + 1) p (norm rj) -
          (factor * st k p (norm ri) + c * st k p (norm rj)) =
          factor * (st (k + 1) p (norm ri) - st k p (norm ri)) + c * (st (k + 1) p (norm rj) - st k p (norm rj)) := by ring
      rw [this, e1, e2]
      ring
    · intro r hr
      simp only
      split
      · by_cases hrd : (some r : Key) = some (norm rd)
        · rw [hrd, Function.update_self]; rfl
        · rw [Function.update_of_ne hrd]; exact hP.2 r hr
      · exact hP.2 r hr
  · simp only [Except.ok.injEq] at h; exact h ▸ hP

theorem attempt_skip (factor : Int) (dest : Operand) (ri rj : Reg) (st : St × List String)
    (h : (st.1.mods (some (norm rj))).isSome = true) : attempt factor dest ri rj st = .ok st := by
  unfold attempt
  split
  · rename_i hj; rw [hj] at h; cases h
  · rfl

theorem stepSum_good (block : List Line) (hw : ∀ l ∈ block, WellFormed l) (ht : Tidy block) (l : Line) (hl : l ∈ block)
    (t t' : St × List String) (hP : Inv block t.1) (h : stepSum t l = .ok t') : Inv block t'.1 := by
  unfold stepSum at h
  split at h
  · simp only [Except.ok.injEq] at h; exact h ▸ hP
  rename_i mn hmn
  simp only at h
  split_ifs at h with hadd hsub
  · obtain ⟨rd, a, b, ho, hc⟩ := (hw l hl).three mn hmn (by simp only [List.mem_cons, List.not_mem_nil, or_false] at hadd ⊢; tauto)
    rw [ho] at h
    split at h
    · rename_i heq
      simp only [List.cons.injEq] at heq
      obtain ⟨rfl, rfl, rfl, -⟩ := heq
      rename_i a b _
      obtain ⟨h1, hs⟩ := ht.sums l hl mn (by simp only [List.mem_cons, List.not_mem_nil, or_false] at hadd ⊢; tauto) hmn rd a b ho
      obtain ⟨p, hp, rfl⟩ := List.getElem_of_mem hl
      have hval : ∀ s s', Exec block[p] s s' → s' (norm rd) = s (norm a) + s (norm b) := by
        intro s s' he
        unfold Exec at he
        rw [hmn, ho] at he
        simp only [List.mem_cons, List.not_mem_nil, or_false] at hadd
        simp only [hadd, if_true, hs, pow_zero, mul_one] at he
        rw [he, Function.update_self]
      simp only [bind, Except.bind] at h
      split at h
      · cases h
      · rename_i t1 ht1
        have i1 := attempt_good block hw p hp rd a b 1 1 h1 hc (fun s s' he => by rw [hval s s' he]; ring) t t1 hP ht1
        exact attempt_good block hw p hp rd b a 1 1 h1 hc (fun s s' he => by rw [hval s s' he]; ring) t1 t' i1 h
    · cases h
    · simp only [Except.ok.injEq] at h; exact h ▸ hP
    · cases h
  · obtain ⟨rd, a, b, ho, hc⟩ := (hw l hl).three mn hmn (by simp only [List.mem_cons, List.not_mem_nil, or_false] at hsub ⊢; tauto)
    rw [ho] at h
    split at h
    · rename_i heq
      simp only [List.cons.injEq] at heq
      obtain ⟨rfl, rfl, rfl, -⟩ := heq
      rename_i a b _
      obtain ⟨h1, hs⟩ := ht.sums l hl mn (by simp only [List.mem_cons, List.not_mem_nil, or_false] at hsub ⊢; tauto) hmn rd a b ho
      have hd := ht.differences l hl mn hsub hmn rd a b ho
      obtain ⟨p, hp, rfl⟩ := List.getElem_of_mem hl
      have hval : ∀ s s', Exec block[p] s s' → s' (norm rd) = s (norm a) - s (norm b) := by
        intro s s' he
        unfold Exec at he
        rw [hmn, ho] at he
        simp only [List.mem_cons, List.not_mem_nil, or_false] at hadd hsub
        simp only [hadd, hsub, if_true, if_false, hs, pow_zero, mul_one] at he
        rw [he, Function.update_self]
      rw [attempt_skip _ _ _ _ _ (hP.2 _ hd)] at h
      exact attempt_good block hw p hp rd b a (-1) 1 h1 hc (fun s s' he => by rw [hval s s' he]; ring) t t' hP h
    · cases h
    · simp only [Except.ok.injEq] at h; exact h ▸ hP
    · cases h
  · simp only [Except.ok.injEq] at h; exact h ▸ hP

theorem once_inv (block : List Line) (st : St) (h : Inv block st) : Inv block (once st) := by
  constructor
  · intro k d hd
    simp only [once] at hd
    split at hd
    · exact h.1 k d hd
    · cases hd
  · intro r hr
    simp only [once]
    split
    · rfl
    · exact h.2 r hr

theorem derive_good (block : List Line) (hw : ∀ l ∈ block, WellFormed l) (ht : Tidy block) (st st' : St)
    (hm : st.mods = modsOf block) (hs : ∀ k d, st.incs k = some d → Source block k d) (h : derive block st = .ok st') :
    Inv block st' := by
  have i0 : Inv block (once st) := by
    constructor
    · intro k d hd
      simp only [once, hm] at hd
      split at hd
      · rename_i h1; exact good_of_source block hw k d (hs k d hd) h1
      · cases hd
    · intro r hr
      simp only [once, hm]
      split
      · rfl
      · exact (modsOf_isSome block r).2 hr
  unfold derive at h
  simp only [bind, Except.bind] at h
  split at h
  · cases h
  · rename_i incs h1
    have i1 := foldlM_inv (fun t => ∀ k d, t k = some d → Good block k d) stepLsl _ _ _
      (fun l hl t t' hP he => stepLsl_good block hw ht l hl t t' hP he) i0.1 h1
    split at h
    · cases h
    · rename_i x h2
      obtain ⟨st2, new⟩ := x
      have i2 : Inv block st2 := foldlM_inv (fun t : St × List String => Inv block t.1) stepSum _ _ _
        (fun l hl t t' hP he => stepSum_good block hw ht l hl t t' hP he) ⟨i1, i0.2⟩ h2
      have i3 := once_inv block st2 i2
      simp only at h
      split at h
      · cases h
      · rename_i incs' h3
        simp only [Except.ok.injEq] at h
        subst h
        exact ⟨foldlM_inv (fun t => ∀ k d, t k = some d → Good block k d) (stepLast new) _ _ _
          (fun l hl t t' hP he => stepLast_good block hw ht new l hl t t' hP he) i3.1 h3, i3.2⟩

/-! ### References -/

theorem mem_stores (block : List Line) (l : Line) (m : Mem) : m ∈ stores (modsOf block) l ↔
    (.mem m ∈ l.dst ∨ .mem m ∈ l.srcDst) ∧ m.offset ≠ .ident ∧
      ∃ x, (m.base = some x ∨ m.index = some x) ∧ Modified block (norm x) := by
  have e : ∀ o : Option Reg, (modsOf block (o.map norm)).isSome = true ↔ ∃ x, o = some x ∧ Modified block (norm x) := by
    intro o
    cases o with
    | none => simp [modsOf]
    | some x => rw [Option.map_some, modsOf_isSome]; simp
  unfold stores
  rw [List.mem_filter, mem_mems, List.mem_append]
  simp only [Bool.and_eq_true, Bool.or_eq_true, decide_eq_true_eq, e]
  constructor
  · rintro ⟨h1, h2, h3⟩
    refine ⟨h1, h3, ?_⟩
    rcases h2 with ⟨x, hx, hm⟩ | ⟨x, hx, hm⟩
    · exact ⟨x, .inl hx, hm⟩
    · exact ⟨x, .inr hx, hm⟩
  · rintro ⟨h1, h3, x, hx | hx, hm⟩
    · exact ⟨h1, .inl ⟨x, hx, hm⟩, h3⟩
    · exact ⟨h1, .inr ⟨x, hx, hm⟩, h3⟩

/-- Stores of a line that is an instruction. -/
def storesOf (mods : Key → Option Int) (l : Line) : List Mem := if l.mnemonic = none then [] else stores mods l

/-- Loads of a line that is an instruction. -/
def loadsOf (l : Line) : List Mem := if l.mnemonic = none then [] else mems (l.src ++ l.srcDst)

theorem fold_true (mods : Key → Option Int) (block : List Line) (acc : List Mem) :
    block.foldl (stepRefs mods) (acc, true) = (acc ++ block.flatMap (storesOf mods), true) := by
  induction block generalizing acc with
  | nil => simp
  | cons l block ih =>
    rw [List.foldl_cons]
    by_cases h : l.mnemonic = none
    · have e : stepRefs mods (acc, true) l = (acc, true) := by simp [stepRefs, h]
      rw [e, ih, List.flatMap_cons]
      simp [storesOf, h]
    · have e : stepRefs mods (acc, true) l = (acc ++ stores mods l, true) := by simp [stepRefs, h]
      rw [e, ih, List.flatMap_cons]
      simp [storesOf, h]

theorem fold_false (mods : Key → Option Int) (block : List Line) (acc : List Mem) :
    (block.foldl (stepRefs mods) (acc, false)).1 =
      if block.flatMap (storesOf mods) = [] then acc ++ block.flatMap loadsOf else block.flatMap (storesOf mods) := by
  induction block generalizing acc with
  | nil => simp
  | cons l block ih =>
    rw [List.foldl_cons]
    by_cases h : l.mnemonic = none
    · have e : stepRefs mods (acc, false) l = (acc, false) := by simp [stepRefs, h]
      have e2 : storesOf mods l = [] := by simp [storesOf, h]
      have e3 : loadsOf l = [] := by simp [loadsOf, h]
      rw [e, ih, List.flatMap_cons, List.flatMap_cons, e2, e3]
      simp
    · by_cases hs : stores mods l = []
      · have e : stepRefs mods (acc, false) l = (acc ++ mems (l.src ++ l.srcDst), false) := by simp [stepRefs, h, hs]
        have e2 : storesOf mods l = [] := by simp [storesOf, hs]
        have e3 : loadsOf l = mems (l.src ++ l.srcDst) := by simp [loadsOf, h]
        rw [e, ih, List.flatMap_cons, List.flatMap_cons, e2, e3]
        simp
      · have e : stepRefs mods (acc, false) l = (stores mods l, true) := by simp [stepRefs, h, hs]
        have e2 : storesOf mods l = stores mods l := by simp [storesOf, h]
        rw [e, fold_true, List.flatMap_cons, e2, if_neg]
        simp [hs]

theorem mem_refs (block : List Line) (m : Mem) :
    m ∈ (block.foldl (stepRefs (modsOf block)) ([], false)).1 ↔ Relevant block m := by
  have hst : ∀ m, m ∈ block.flatMap (storesOf (modsOf block)) ↔ Store block m := by
    intro m
    simp only [List.mem_flatMap, storesOf, Store]
    constructor
    · rintro ⟨l, hl, h⟩
      split at h
      · cases h
      · rename_i hn
        obtain ⟨h1, h2, h3⟩ := (mem_stores block l m).1 h
        exact ⟨l, hl, hn, h1, h2, h3⟩
    · rintro ⟨l, hl, hn, h1, h2, h3⟩
      exact ⟨l, hl, by rw [if_neg hn]; exact (mem_stores block l m).2 ⟨h1, h2, h3⟩⟩
  have hld : m ∈ block.flatMap loadsOf ↔ Load block m := by
    simp only [List.mem_flatMap, loadsOf, Load]
    constructor
    · rintro ⟨l, hl, h⟩
      split at h
      · cases h
      · rename_i hn
        rw [mem_mems, List.mem_append] at h
        exact ⟨l, hl, hn, h⟩
    · rintro ⟨l, hl, hn, h⟩
      exact ⟨l, hl, by rw [if_neg hn, mem_mems, List.mem_append]; exact h⟩
  rw [fold_false, Relevant]
  split
  · rename_i h
    have hno : ∀ m', ¬ Store block m' := fun m' hm => by rw [← hst, h] at hm; cases hm
    rw [List.nil_append, hld]
    constructor
    · intro hm; exact .inr ⟨fun ⟨m', hm'⟩ => hno m' hm', hm⟩
    · rintro (hm | ⟨-, hm⟩)
      · exact absurd hm (hno m)
      · exact hm
  · rename_i h
    rw [hst]
    constructor
    · exact .inl
    · rintro (hm | ⟨hno, -⟩)
      · exact hm
      · obtain ⟨m', hm'⟩ := List.exists_mem_of_ne_nil _ h
        exact absurd ⟨m', (hst m').1 hm'⟩ hno

/-! ### Counters -/

theorem foldlM_estab {α σ : Type} (P : σ → Prop) (f : σ → α → Except String σ) (l : List α) (s s' : σ)
    (hf : ∀ a ∈ l, ∀ t t', P t → f t a = .ok t' → P t') (hs : ∃ a ∈ l, ∀ t t', f t a = .ok t' → P t')
    (h : l.foldlM f s = .ok s') : P s' := by
  induction l generalizing s with
  | nil => obtain ⟨a, ha, -⟩ := hs; cases ha
  | cons a l ih =>
    rw [List.foldlM_cons] at h
    cases hfa : f s a with
    | error e => rw [hfa] at h; cases h
    | ok t =>
      rw [hfa] at h
      obtain ⟨b, hb, hs⟩ := hs
      rcases List.mem_cons.1 hb with rfl | hb
      · exact foldlM_inv P f l t s' (fun c hc => hf c (by simp [hc])) (hs s t hfa) h
      · exact ih t (fun c hc => hf c (by simp [hc])) ⟨b, hb, hs⟩ h

theorem same_line (block : List Line) (r : String) (h : writeCount block r = 1) (l l' : Line) (hl : l ∈ block) (hl' : l' ∈ block)
    (c : 0 < lineCount l r) (c' : 0 < lineCount l' r) : l = l' := by
  obtain ⟨p, hp, rfl⟩ := List.getElem_of_mem hl
  obtain ⟨q, hq, rfl⟩ := List.getElem_of_mem hl'
  obtain rfl := unique_index block (lineCount · r) h p q hp hq c c'
  rfl

theorem counter_imm (block : List Line) (hw : ∀ l ∈ block, WellFormed l) (r : String) (v : Int) (hc : Counter block r v)
    (t t' : Key → Option Int) (h : block.foldlM stepImm t = .ok t') : t' (some r) = some v := by
  obtain ⟨l, hl, mn, hmn, a, hm, ho, rfl, h1⟩ := hc
  have hthree : ∀ l' ∈ block, ∀ mn', l'.mnemonic = some mn' → mn' ∈ ["add", "adds", "sub", "subs", "lsl"] →
      ∀ d x y, l'.operands = [.reg d, x, y] → norm d = norm a → l' = l := by
    intro l' hl' mn' h2 h3 d x y h4 h5
    have hpos : ∀ l'' ∈ block, ∀ mn', l''.mnemonic = some mn' → mn' ∈ ["add", "adds", "sub", "subs", "lsl"] →
        ∀ d x y, l''.operands = [.reg d, x, y] → 0 < lineCount l'' (norm d) := by
      intro l'' hl'' mn' h2 h3 d x y h4
      obtain ⟨d', a', b', h5, h6⟩ := (hw l'' hl'').three mn' h2 h3
      rw [h4] at h5
      simp only [List.cons.injEq, Operand.reg.injEq] at h5
      rw [h5.1]; exact h6
    refine same_line block (norm a) h1 l' l hl' hl (h5 ▸ hpos l' hl' mn' h2 h3 d x y h4) (hpos l hl mn hm ?_ a _ _ ho)
    simp only [List.mem_cons, List.not_mem_nil, or_false] at hmn ⊢; tauto
  refine foldlM_estab (fun t => t (some (norm a)) = some v) stepImm block t t' ?_ ⟨l, hl, ?_⟩ h
  · intro l' hl' t t' hP he
    unfold stepImm at he
    split at he
    · simp only [Except.ok.injEq] at he; exact he ▸ hP
    rename_i mn' hmn'
    simp only at he
    split_ifs at he with h2 h3
    · obtain ⟨d, x, y, ho', -⟩ := (hw l' hl').three mn' hmn' (by simp only [List.mem_cons, List.not_mem_nil, or_false] at h2 ⊢; tauto)
      rw [ho'] at he
      simp only at he
      split_ifs at he with hx
      · subst hx
        cases y with
        | imm v' =>
          simp only [Except.ok.injEq] at he
          subst he
          by_cases hd : norm d = norm a
          · obtain rfl := hthree l' hl' mn' hmn' (by simp only [List.mem_cons, List.not_mem_nil, or_false] at h2 ⊢; tauto) d _ _ ho' hd
            rw [ho] at ho'
            simp only [List.cons.injEq, Operand.imm.injEq, and_true] at ho'
            rw [hd, Function.update_self, ho'.2.2]
          · rw [Function.update_of_ne (by simpa using fun h => hd h.symm)]; exact hP
        | reg _ => simp only [Except.ok.injEq] at he; exact he ▸ hP
        | mem _ => simp only [Except.ok.injEq] at he; exact he ▸ hP
        | other => simp only [Except.ok.injEq] at he; exact he ▸ hP
      · simp only [Except.ok.injEq] at he; exact he ▸ hP
    · obtain ⟨d, x, y, ho', -⟩ := (hw l' hl').three mn' hmn' (by simp only [List.mem_cons, List.not_mem_nil, or_false] at h3 ⊢; tauto)
      rw [ho'] at he
      simp only at he
      split_ifs at he with hx
      · subst hx
        cases y with
        | imm v' =>
          simp only [Except.ok.injEq] at he
          subst he
          split
          · rename_i hq
            by_cases hd : norm d = norm a
            · rw [hd] at hq
              rw [hd, Function.update_self, ← hq, hP]
            · rw [Function.update_of_ne (by simpa using fun h => hd h.symm)]; exact hP
          · exact hP
        | reg _ => simp only [Except.ok.injEq] at he; exact he ▸ hP
        | mem _ => simp only [Except.ok.injEq] at he; exact he ▸ hP
        | other => simp only [Except.ok.injEq] at he; exact he ▸ hP
      · simp only [Except.ok.injEq] at he; exact he ▸ hP
    · simp only [Except.ok.injEq] at he; exact he ▸ hP
  · intro t t' he
    unfold stepImm at he
    rw [hm, ho] at he
    simp only [hmn, if_true, Except.ok.injEq] at he
    subst he
    rw [Function.update_self]

theorem shiftTo_keep (block : List Line) (hw : ∀ l ∈ block, WellFormed l) (r : String) (v : Int) (hc : Counter block r v)
    (l : Line) (hl : l ∈ block) (hm : l.mnemonic = some "lsl") (a b : Operand) (rest : List Operand)
    (ho : l.operands = a :: b :: rest) (t t' : Key → Option Int) (d w : Int) (hP : t (some r) = some v)
    (h : shiftTo t d a w = .ok t') : t' (some r) = some v := by
  obtain ⟨l0, hl0, mn, hmn, a0, hm0, ho0, rfl, h1⟩ := hc
  obtain ⟨rd, x, y, ho', hpos⟩ := (hw l hl).three "lsl" hm (by simp)
  obtain ⟨rd0, x0, y0, ho0', hpos0⟩ := (hw l0 hl0).three mn hm0
    (by simp only [List.mem_cons, List.not_mem_nil, or_false] at hmn ⊢; tauto)
  rw [ho0] at ho0'
  rw [ho] at ho'
  simp only [List.cons.injEq, Operand.reg.injEq] at ho' ho0'
  obtain ⟨rfl, -⟩ := ho'
  obtain ⟨rfl, -⟩ := ho0'
  unfold shiftTo at h
  simp only at h
  split_ifs at h
  simp only [Except.ok.injEq] at h
  subst h
  by_cases hd : norm rd = norm a0
  · obtain rfl := same_line block (norm a0) h1 l l0 hl hl0 (hd ▸ hpos) hpos0
    rw [hm] at hm0
    simp only [Option.some.injEq] at hm0
    rw [← hm0] at hmn
    exact absurd hmn (by decide)
  · rw [Function.update_of_ne (by simpa using fun h => hd h.symm)]; exact hP

theorem counter_derive (block : List Line) (hw : ∀ l ∈ block, WellFormed l) (r : String) (v : Int) (hc : Counter block r v)
    (st st' : St) (hm : st.mods = modsOf block) (hi : st.incs (some r) = some v) (h : derive block st = .ok st') :
    st'.incs (some r) = some v ∧ st'.mods (some r) = some 1 := by
  have h1 : writeCount block r = 1 := by obtain ⟨_, _, _, _, _, _, _, rfl, h1⟩ := hc; exact h1
  have hmods : st.mods (some r) = some 1 := by rw [hm]; simp [modsOf, h1]
  unfold derive at h
  simp only [bind, Except.bind] at h
  split at h
  · cases h
  rename_i incs e1
  have i1 : incs (some r) = some v := by
    refine foldlM_inv (fun t => t (some r) = some v) stepLsl _ _ _ ?_ ?_ e1
    · intro l hl t t' hP he
      unfold stepLsl at he
      split_ifs at he with hmn
      · split at he
        · rename_i ho
          split at he
          · split at he
            · exact shiftTo_keep block hw r v hc l hl hmn _ _ _ ho t t' _ _ hP he
            · simp only [Except.ok.injEq] at he; exact he ▸ hP
          · cases he
        · simp only [Except.ok.injEq] at he; exact he ▸ hP
        · cases he
      · simp only [Except.ok.injEq] at he; exact he ▸ hP
    · simp [once, hmods, hi]
  split at h
  · cases h
  rename_i x e2
  obtain ⟨st2, new⟩ := x
  have i2 : st2.incs (some r) = some v ∧ st2.mods (some r) = some 1 := by
    refine foldlM_inv (fun t : St × List String => t.1.incs (some r) = some v ∧ t.1.mods (some r) = some 1) stepSum _ _ _ ?_ ?_ e2
    · intro l hl t t' hP he
      have hatt : ∀ factor dest ri rj (t t' : St × List String), (∀ rd, dest = .reg rd → norm rd ≠ r) →
          attempt factor dest ri rj t = .ok t' → (t.1.incs (some r) = some v ∧ t.1.mods (some r) = some 1) →
          t'.1.incs (some r) = some v ∧ t'.1.mods (some r) = some 1 := by
        intro factor dest ri rj t t' hne he hP
        unfold attempt at he
        split at he
        · split at he
          · rename_i rd
            simp only [Except.ok.injEq] at he
            subst he
            have hk : (some r : Key) ≠ some (norm rd) := by simpa using fun h => hne rd rfl h.symm
            refine ⟨by simp only; rw [Function.update_of_ne hk]; exact hP.1, ?_⟩
            simp only
            split
            · rw [Function.update_of_ne hk]; exact hP.2
            · exact hP.2
          · cases he
        · simp only [Except.ok.injEq] at he; exact he ▸ hP
      unfold stepSum at he
      split at he
      · simp only [Except.ok.injEq] at he; exact he ▸ hP
      rename_i mn hmn
      simp only at he
      have hact : ∀ factor, mn ∈ ["add", "adds", "sub", "subs", "lsl"] → (match l.operands with
          | dest :: .reg a :: .reg b :: _ => do attempt factor dest b a (← attempt factor dest a b t)
          | _ :: .reg _ :: [] => .error "IndexError"
          | _ :: _ :: _ => .ok t
          | _ => .error "IndexError") = Except.ok t' → t'.1.incs (some r) = some v ∧ t'.1.mods (some r) = some 1 := by
        intro factor hin he
        split at he
        · rename_i dest a b rest ho
          have hne : ∀ rd, dest = .reg rd → norm rd ≠ r := by
            rintro rd rfl rfl
            obtain ⟨l0, hl0, mn0, hmn0, a0, hm0, ho0, hr0, h1⟩ := hc
            obtain ⟨rd', x, y, ho', hpos⟩ := (hw l hl).three mn hmn hin
            obtain ⟨rd0, x0, y0, ho0', hpos0⟩ := (hw l0 hl0).three mn0 hm0
              (by simp only [List.mem_cons, List.not_mem_nil, or_false] at hmn0 ⊢; tauto)
            rw [ho0] at ho0'
            rw [ho] at ho'
            simp only [List.cons.injEq, Operand.reg.injEq] at ho' ho0'
            obtain ⟨rfl, -⟩ := ho'
            obtain ⟨rfl, -⟩ := ho0'
            rw [hr0] at hpos0
            obtain rfl := same_line block (norm rd) h1 l l0 hl hl0 hpos hpos0
            rw [ho] at ho0
            simp at ho0
          simp only [bind, Except.bind] at he
          split at he
          · cases he
          · rename_i t1 ht1
            exact hatt _ _ _ _ t1 t' hne he (hatt _ _ _ _ t t1 hne ht1 hP)
        · cases he
        · simp only [Except.ok.injEq] at he; exact he ▸ hP
        · cases he
      split_ifs at he with hadd hsub
      · exact hact 1 (by simp only [List.mem_cons, List.not_mem_nil, or_false] at hadd ⊢; tauto) he
      · exact hact (-1) (by simp only [List.mem_cons, List.not_mem_nil, or_false] at hsub ⊢; tauto) he
      · simp only [Except.ok.injEq] at he; exact he ▸ hP
    · refine ⟨i1, ?_⟩
      simp [once, hmods, hi]
  simp only at h
  split at h
  · cases h
  rename_i incs' e3
  simp only [Except.ok.injEq] at h
  subst h
  refine ⟨?_, by simp [once, i2.1, i2.2]⟩
  refine foldlM_inv (fun t => t (some r) = some v) (stepLast new) _ _ _ ?_ ?_ e3
  · intro l hl t t' hP he
    unfold stepLast at he
    split_ifs at he with hmn
    · split at he
      · rename_i ho
        split at he
        · split_ifs at he
          · exact shiftTo_keep block hw r v hc l hl hmn _ _ _ ho t t' _ _ hP he
          · simp only [Except.ok.injEq] at he; exact he ▸ hP
        · simp only [Except.ok.injEq] at he; exact he ▸ hP
      · simp only [Except.ok.injEq] at he; exact he ▸ hP
      · cases he
    · simp only [Except.ok.injEq] at he; exact he ▸ hP
  · simp [once, i2.1, i2.2]

/-! ### The result -/

theorem scales_eq (regs : List (Key × Int)) (a : Key) (c : Int) (s : Key → Int) (h : ∀ x ∈ regs, x.1 = a → x.2 = c)
    (hs : s a = c ∨ (∃ x ∈ regs, x.1 = a) ∧ s a = 1) :
    regs.foldl (fun s x => if x.2 = 1 then s else Function.update s x.1 x.2) s a = c := by
  induction regs generalizing s with
  | nil =>
    rcases hs with hs | ⟨⟨x, hx, -⟩, -⟩
    · exact hs
    · cases hx
  | cons x regs ih =>
    rw [List.foldl_cons]
    apply ih _ fun y hy => h y (by simp [hy])
    by_cases hx : x.1 = a
    · left
      have hc := h x (by simp) hx
      split
      · rename_i h1
        rcases hs with hs | ⟨-, hs⟩
        · exact hs
        · rw [hs, ← hc, h1]
      · rw [hx, Function.update_self, hc]
    · have hk : (if x.2 = 1 then s else Function.update s x.1 x.2) a = s a := by
        split
        · rfl
        · rw [Function.update_of_ne (Ne.symm hx)]
      rw [hk]
      rcases hs with hs | ⟨⟨y, hy, hya⟩, hs⟩
      · exact .inl hs
      · rcases List.mem_cons.1 hy with rfl | hy
        · exact absurd hya hx
        · exact .inr ⟨⟨y, hy, hya⟩, hs⟩

theorem itemsEqual_all (a : Int) (l : List Int) (h : Asm.itemsEqual (a :: l) = true) : ∀ x ∈ l, x = a := by
  unfold Asm.itemsEqual at h
  rw [decide_eq_true_eq, List.tail_cons] at h
  induction l generalizing a with
  | nil => simp
  | cons b l ih =>
    rw [List.dropLast_cons_cons, List.cons.injEq] at h
    obtain ⟨rfl, h⟩ := h
    intro x hx
    rcases List.mem_cons.1 hx with rfl | hx
    · rfl
    · exact ih _ h x hx

theorem counter_first (block : List Line) (hw : ∀ l ∈ block, WellFormed l) (r : String) (v : Int) (hc : Counter block r v)
    (st : St) (refs : List Mem) (h : first block = .ok (st, refs)) : st.incs (some r) = some v := by
  unfold first at h
  simp only [bind, Except.bind] at h
  split at h
  · cases h
  · split at h
    · cases h
    · rename_i incs h4
      simp only [Except.ok.injEq, Prod.mk.injEq] at h
      rw [← h.1]
      exact counter_imm block hw r v hc _ _ h4

/-- What the reported value says: it is the product of the increment shared by all address registers, and the scale. -/
theorem deduce_spec (st : St) (refs : List Mem) (x : Int) (h : deduce st refs = some x) (c : Int)
    (hc : ∀ m ∈ refs, (st.incs (addressReg st.incs m).1).isSome = true → (addressReg st.incs m).2 = c) :
    ∃ d, x = d * c ∧ ∀ m ∈ refs, (st.mods (addressReg st.incs m).1).isSome = true → st.incs (addressReg st.incs m).1 = some d := by
  unfold deduce at h
  simp only at h
  split at h
  · cases h
  · rename_i a rest ha
    split_ifs at h with hcond
    simp only [Option.some.injEq] at h
    obtain ⟨hall, heq⟩ := hcond
    rw [List.all_eq_true] at hall
    obtain ⟨d, hd⟩ := Option.isSome_iff_exists.1 (hall a (by simp))
    have hmem : ∀ k ∈ a :: rest, st.incs k = some d := by
      intro k hk
      obtain ⟨e, he⟩ := Option.isSome_iff_exists.1 (hall k hk)
      rcases List.mem_cons.1 hk with rfl | hk'
      · exact hd
      · have := itemsEqual_all _ _ heq e (List.mem_map.2 ⟨k, hk', by simp [he]⟩)
        rw [he, this]; simp [hd]
    refine ⟨d, ?_, ?_⟩
    · rw [← h, hd, scales_eq _ a c]
      · rfl
      · intro y hy hya
        obtain ⟨m, hm, rfl⟩ := List.mem_map.1 hy
        refine hc m hm ?_
        rw [hya, hd]
        rfl
      · right
        refine ⟨?_, rfl⟩
        have : a ∈ ((refs.map (addressReg st.incs)).map (·.1)).filter fun k => (st.mods k).isSome := by rw [ha]; simp
        obtain ⟨y, hy, hya⟩ := List.mem_map.1 (List.mem_filter.1 this).1
        exact ⟨y, hy, hya⟩
    · intro m hm hmod
      apply hmem
      rw [← ha]
      exact List.mem_filter.2 ⟨List.mem_map.2 ⟨_, List.mem_map.2 ⟨m, hm, rfl⟩, rfl⟩, hmod⟩

/-! ### Executions -/

theorem writesBack_unique (m : Mem) (r : String) (v v' : Int) (h : WritesBack m r v) (h' : WritesBack m r v') : v = v' := by
  generalize hr : r = r' at h'
  cases h <;> cases h' <;> simp_all

theorem unknown_total (l : Line) (s : Regs) : ∃ s', Unknown l s s' := by
  classical
  refine ⟨fun r => if h : ∃ v, (∃ m ∈ mems l.operands, WritesBack m r v) ∧ lineCount l r = 1 then s r + h.choose else s r, ?_, ?_⟩
  · intro r h0
    simp only
    rw [dif_neg]
    rintro ⟨v, -, h1⟩
    omega
  · intro m hm r v hv h1
    have hex : ∃ v, (∃ m ∈ mems l.operands, WritesBack m r v) ∧ lineCount l r = 1 := ⟨v, ⟨m, hm, hv⟩, h1⟩
    simp only
    rw [dif_pos hex]
    obtain ⟨⟨m', hm', hv'⟩, -⟩ := hex.choose_spec
    have hin : ∀ m ∈ mems l.operands, ∀ v, WritesBack m r v →
        m ∈ (mems l.operands).filter fun m => m.writesBack && decide (m.base.map norm = some r) := by
      intro m hm v hv
      refine List.mem_filter.2 ⟨hm, ?_⟩
      cases hv with
      | pre b v hp hb ho => simp [Mem.writesBack, hp, hb]
      | post b v hp hb ho => simp [Mem.writesBack, ho, hb]
    have hlen : ((mems l.operands).filter fun m => m.writesBack && decide (m.base.map norm = some r)).length ≤ 1 := by
      unfold lineCount at h1; omega
    have e : m = m' := by
      have a := hin m hm v hv
      have b := hin m' hm' _ hv'
      generalize (mems l.operands).filter (fun m => m.writesBack && decide (m.base.map norm = some r)) = L at *
      match L, hlen with
      | [], _ => cases a
      | [y], _ => rw [List.mem_singleton] at a b; rw [a, b]
    subst e
    rw [writesBack_unique _ _ _ _ hv hv']

theorem exec_total (l : Line) (s : Regs) : ∃ s', Exec l s s' := by
  unfold Exec
  split
  · exact ⟨_, rfl⟩
  · split_ifs
    · exact ⟨_, rfl⟩
    · exact ⟨_, rfl⟩
    · exact ⟨_, rfl⟩
    · exact unknown_total l s
  · split_ifs
    · exact ⟨_, rfl⟩
    · exact ⟨_, rfl⟩
    · exact unknown_total l s
  · exact unknown_total l s

theorem loops_exist (block : List Line) (s0 : Regs) (n : Nat) : ∃ st, Loop block n st ∧ st 0 0 = s0 := by
  choose F hF using exec_total
  let run : Regs → Nat → Regs := fun s p => (block.take p).foldl (fun s l => F l s) s
  let start : Nat → Regs := fun k => Nat.rec s0 (fun _ s => run s block.length) k
  refine ⟨fun k p => run (start k) p, ⟨?_, ?_⟩, rfl⟩
  · intro k _ p hp
    simp only [run]
    rw [List.take_succ_eq_append_getElem hp, List.foldl_append]
    exact hF _ _
  · intro k _
    rfl

end Verif.A64
