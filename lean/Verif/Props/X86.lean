import Verif.Lemmas.X86

/-!
C56, C63, C64: detection of pointer increments in x86 code.
-/

namespace Verif.Asm

open Verif.Spec

/-- The register is part of the address of a relevant reference. -/
def AddressReg (block : List Line) (r : String) : Prop := ∃ m, Relevant block m ∧ UsesReg m r

/-- Blocks whose changes of address registers are all of the recognised kind. -/
structure Understood (other : Line → Regs → Regs → Prop) (block : List Line) : Prop where
  wellFormed : ∀ l ∈ block, WellFormed l
  otherKeeps : ∀ l ∈ block, ∀ s s', other l s s' → ∀ r, AddressReg block r → s' r = s r
  leaAdds : ∀ l ∈ block, ∀ r, AddressReg block r → LeaAdds l r

theorem understood_change (other : Line → Regs → Regs → Prop) (block : List Line) (hu : Understood other block)
    (st : St) (hst : scan St.init block = .ok st) (r : String) (hr : AddressReg block r) (hc : st.modified.count r = 1)
    (s s' : Regs) (hrun : Run other block s s') : s' r = s r + (st.incs.lookup r).getD 0 := by
  obtain ⟨_, _, h⟩ := scan_change other block r hu.wellFormed (fun l hl s s' ho => hu.otherKeeps l hl s s' ho r hr)
    (fun l hl => hu.leaAdds l hl r hr) St.init st s s' hst hrun
  obtain ⟨d, h1, h2⟩ := h (by simpa [St.init] using hc)
  rw [h2, h1]
  rfl

/-- C56, partial: in a block whose changes of address registers are all recognised, a reported increment is the product
of the change of one address register over the whole block and the scale common to all references that use the
register. This holds for every order of the set of candidates. Missing: blocks with other changes
(`C56_negation_unrecognised`) and scaled `lea` (`C56_negation_lea`). -/
theorem C56_justified_partial (other : Line → Regs → Regs → Prop) (block : List Line) (hu : Understood other block) (p : Int)
    (h : Detects block (.ok (some p))) :
    ∃ r d k, p = k * d ∧ AddressReg block r ∧ (∀ m, Relevant block m → UsesReg m r → m.scale = k) ∧
      ∀ s s', Run other block s s' → s' r = s r + d := by
  unfold Detects at h
  cases hst : scan St.init block with
  | error e => rw [hst] at h; simp at h
  | ok st =>
    rw [hst] at h
    obtain ⟨cands, _, hd⟩ := h
    obtain ⟨r, k, _, hc, ⟨m0, hm0, hu0⟩, hk, hp⟩ := deduce_some st cands p hd.symm
    have hr : AddressReg block r := ⟨m0, (scan_relevant block st hst m0).mp hm0, hu0⟩
    exact ⟨r, _, k, hp, hr, fun m hm hum => hk m ((scan_relevant block st hst m).mpr hm) hum,
      fun s s' hrun => understood_change other block hu st hst r hr hc s s' hrun⟩

/-- C63, partial: under the same condition, the addresses of all references that use the register as index (not as
base), or as unscaled base, move by the reported increment while their other register is constant. Missing: scaled
references with the register as base (`C63_negation`). -/
theorem C63_addresses_partial (other : Line → Regs → Regs → Prop) (block : List Line) (hu : Understood other block) (p : Int)
    (h : Detects block (.ok (some p))) :
    ∃ r, AddressReg block r ∧ ∀ m, Relevant block m → UsesReg m r →
      (m.base ≠ some r ∨ (m.scale = 1 ∧ m.index ≠ some r)) →
      ∀ s s', Run other block s s' → (∀ q, UsesReg m q → q ≠ r → s' q = s q) → address s' m = address s m + p := by
  obtain ⟨r, d, k, rfl, hr, hk, hrun⟩ := C56_justified_partial other block hu p h
  refine ⟨r, hr, fun m hm hum hs s s' hexec hq => ?_⟩
  have hd := hrun s s' hexec
  have hscale := hk m hm hum
  have hreg : ∀ q, UsesReg m q → s' q = s q + if q = r then d else 0 := by
    intro q hq'
    by_cases h : q = r
    · subst h; simp [hd]
    · simp [h, hq q hq' h]
  have hbase : regVal s' m.base = regVal s m.base + if m.base = some r then d else 0 := by
    cases hb : m.base with
    | none => simp [regVal]
    | some q => simpa [regVal] using hreg q (Or.inl hb)
  have hindex : regVal s' m.index = regVal s m.index + if m.index = some r then d else 0 := by
    cases hi : m.index with
    | none => simp [regVal]
    | some q => simpa [regVal] using hreg q (Or.inr hi)
  unfold address
  rw [hbase, hindex, hscale]
  rcases hs with hb | ⟨h1, hi⟩
  · have hi : m.index = some r := by
      rcases hum with h | h
      · exact absurd h hb
      · exact h
    rw [if_neg hb, if_pos hi]
    ring
  · have hb : m.base = some r := by
      rcases hum with h | h
      · exact h
      · exact absurd h hi
    rw [if_pos hb, if_neg hi]
    rw [hscale] at h1
    subst h1
    ring

/-- C63, an exact description: how far the addresses of every reference with the chosen register move, and that this is the
reported increment just if the register is no base, or the base of an unscaled reference, or does not move at all. -/
theorem C63_right_iff (other : Line → Regs → Regs → Prop) (block : List Line) (hu : Understood other block) (p : Int)
    (h : Detects block (.ok (some p))) :
    ∃ r, AddressReg block r ∧ ∀ m, Relevant block m → UsesReg m r → m.scale ≠ 0 →
      ∀ s s', Run other block s s' → (∀ q, UsesReg m q → q ≠ r → s' q = s q) →
        (address s' m - address s m) * m.scale =
          p * ((if m.base = some r then 1 else 0) + if m.index = some r then m.scale else 0) ∧
        (address s' m = address s m + p ↔ p = 0 ∨ m.base ≠ some r ∨ (m.scale = 1 ∧ m.index ≠ some r)) := by
  obtain ⟨r, d, k, rfl, hr, hk, hrun⟩ := C56_justified_partial other block hu p h
  refine ⟨r, hr, fun m hm hum h0 s s' hexec hq => ?_⟩
  have hd := hrun s s' hexec
  have hscale := hk m hm hum
  have hreg : ∀ q, UsesReg m q → s' q = s q + if q = r then d else 0 := by
    intro q hq'
    by_cases h : q = r
    · subst h; simp [hd]
    · simp [h, hq q hq' h]
  have hbase : regVal s' m.base = regVal s m.base + if m.base = some r then d else 0 := by
    cases hb : m.base with
    | none => simp [regVal]
    | some q => simpa [regVal] using hreg q (Or.inl hb)
  have hindex : regVal s' m.index = regVal s m.index + if m.index = some r then d else 0 := by
    cases hi : m.index with
    | none => simp [regVal]
    | some q => simpa [regVal] using hreg q (Or.inr hi)
  have hmove : address s' m - address s m =
      (if m.base = some r then d else 0) + (if m.index = some r then d else 0) * k := by
    unfold address
    rw [hbase, hindex, hscale]
    ring
  rw [hscale] at h0 ⊢
  have hp : k * d = 0 ↔ d = 0 := by simp [h0]
  have hadd : address s' m = address s m + k * d ↔ address s' m - address s m = k * d := by
    constructor <;> intro h <;> linarith
  rw [hadd, hmove, hp]
  by_cases hb : m.base = some r <;> by_cases hi : m.index = some r
  · simp only [hb, hi, if_true, ne_eq, not_true, and_false, or_false]
    refine ⟨by ring, ?_, fun h => by simp [h]⟩
    intro h; linarith
  · simp only [hb, hi, if_true, if_false, ne_eq, not_true, not_false_iff, false_or, and_true]
    refine ⟨by ring, fun h => ?_, ?_⟩
    · have : d * (k - 1) = 0 := by linarith
      rcases mul_eq_zero.1 this with h | h
      · exact Or.inl h
      · right; omega
    · rintro (h | h) <;> simp [h]
  · simp only [hb, hi, if_true, if_false, ne_eq, not_false_iff, true_or, or_true, iff_true]
    constructor <;> ring
  · rcases hum with h | h <;> contradiction

/-! ### Examples -/

/-- A register operand. -/
def R (n : String) : Operand := .reg none n

/-- `vmovupd %ymm0, (%rax,%rcx,8)` -/
def storeScaled : Line :=
  let m : Mem := ⟨.none, some "rax", some "rcx", 8⟩
  ⟨some "vmovupd", [R "ymm0", .mem m], [.mem m], [R "ymm0"]⟩

/-- `vmovupd %ymm0, (%rax)` -/
def storePlain : Line :=
  let m : Mem := ⟨.none, some "rax", none, 1⟩
  ⟨some "vmovupd", [R "ymm0", .mem m], [.mem m], [R "ymm0"]⟩

/-- `add $v, %r` -/
def addImm (v : Int) (r : String) : Line := ⟨some "addq", [.imm (some v), R r], [R r], [.imm (some v), R r]⟩

/-- `sub %q, %r` -/
def subReg (q r : String) : Line := ⟨some "subq", [R q, R r], [R r], [R q, R r]⟩

/-- A comment. -/
def comment : Line := ⟨none, [], [], []⟩

/-- A usual loop body. -/
def loopBody : List Line := [comment, storeScaled, addImm 4 "rcx"]

/-- Instructions without effect on general registers. -/
def noEffect : Line → Regs → Regs → Prop := fun _ s s' => s' = s

theorem detects_of (block : List Line) (st : St) (cands : List String) (res : Except String (Option Int))
    (h1 : scan St.init block = .ok st) (h2 : cands.Nodup)
    (h3 : ∀ r ∈ cands, r ∈ st.incs.map Prod.fst ∧ ∃ m ∈ st.refs, m.uses r = true)
    (h4 : ∀ r ∈ st.incs.map Prod.fst, (∃ m ∈ st.refs, m.uses r = true) → r ∈ cands)
    (h5 : res = deduce st cands) : Detects block res := by
  unfold Detects
  rw [h1]
  exact ⟨cands, ⟨h2, fun r => ⟨h3 r, fun h => h4 r h.1 h.2⟩⟩, h5⟩

theorem wf_vmov (l : Line) (h : l.mnemonic = some "vmovupd") : WellFormed l := by
  have key : ∀ root ∈ roots, isMn root "vmovupd" = false := by decide
  intro m hm
  rw [h] at hm
  simp only [Option.some.injEq] at hm
  subst hm
  refine ⟨?_, ?_, ?_⟩
  · rintro (h | h)
    · exact absurd h ((isMn_false_iff _ _).mp (key "inc" (by decide)))
    · exact absurd h ((isMn_false_iff _ _).mp (key "dec" (by decide)))
  · rintro (h | h)
    · exact absurd h ((isMn_false_iff _ _).mp (key "add" (by decide)))
    · exact absurd h ((isMn_false_iff _ _).mp (key "sub" (by decide)))
  · intro h
    exact absurd h ((isMn_false_iff _ _).mp (key "lea" (by decide)))

theorem wf_addImm (v : Int) (r : String) : WellFormed (addImm v r) := by
  have key : ∀ root ∈ ["inc", "dec", "lea"], isMn root "addq" = false := by decide
  intro m hm
  simp only [addImm, Option.some.injEq] at hm
  subst hm
  refine ⟨?_, fun _ => ⟨_, _, rfl⟩, ?_⟩
  · rintro (h | h)
    · exact absurd h ((isMn_false_iff _ _).mp (key "inc" (by decide)))
    · exact absurd h ((isMn_false_iff _ _).mp (key "dec" (by decide)))
  · intro h
    exact absurd h ((isMn_false_iff _ _).mp (key "lea" (by decide)))

/-- The loop body meets the hypotheses of C56 and C63, and its increment is 32. -/
example : Understood noEffect loopBody ∧ Detects loopBody (.ok (some 32)) := by
  refine ⟨⟨?_, ?_, ?_⟩, ?_⟩
  · intro l hl
    simp only [loopBody, List.mem_cons, List.not_mem_nil, or_false] at hl
    rcases hl with rfl | rfl | rfl
    · intro m hm; simp [comment] at hm
    · exact wf_vmov _ rfl
    · exact wf_addImm _ _
  · rintro l _ s s' rfl r _; rfl
  · intro l hl r _ m mem p hm hroot hop
    simp only [loopBody, List.mem_cons, List.not_mem_nil, or_false] at hl
    rcases hl with rfl | rfl | rfl <;> simp [comment, storeScaled, addImm, R] at hop
  · exact detects_of loopBody ⟨[("rcx", 4)], ["rcx"], true, [⟨.none, some "rax", some "rcx", 8⟩]⟩ ["rcx"] _
      (by decide +kernel) (by decide) (by decide) (by decide) (by decide)

/-- C63 does not hold: in `vmovupd %ymm0,(%rax,%rcx,8); add $32,%rax` the address moves by 32 in every execution, but
256 is reported, because the base register is multiplied with the scale of the index. -/
theorem C63_negation : Detects [storeScaled, addImm 32 "rax"] (.ok (some 256)) ∧
    ∀ s s', Run noEffect [storeScaled, addImm 32 "rax"] s s' →
      ∀ m, Relevant [storeScaled, addImm 32 "rax"] m → address s' m = address s m + 32 := by
  have hscan : scan St.init [storeScaled, addImm 32 "rax"] =
      .ok ⟨[("rax", 32)], ["rax"], true, [⟨.none, some "rax", some "rcx", 8⟩]⟩ := by decide +kernel
  refine ⟨detects_of _ _ ["rax"] _ hscan (by decide) (by decide) (by decide) (by decide), ?_⟩
  intro s s' hrun m hm
  have hm : m = ⟨.none, some "rax", some "rcx", 8⟩ := by
    have := (scan_relevant _ _ hscan m).mpr hm
    simpa using this
  have hwf : ∀ l ∈ [storeScaled, addImm 32 "rax"], WellFormed l := by
    intro l hl
    simp only [List.mem_cons, List.not_mem_nil, or_false] at hl
    rcases hl with rfl | rfl
    · exact wf_vmov _ rfl
    · exact wf_addImm _ _
  have hlea : ∀ r, ∀ l ∈ [storeScaled, addImm 32 "rax"], LeaAdds l r := by
    intro r l hl m mem p _ _ hop
    simp only [List.mem_cons, List.not_mem_nil, or_false] at hl
    rcases hl with rfl | rfl <;> simp [storeScaled, addImm, R] at hop
  have hoth : ∀ r, ∀ l ∈ [storeScaled, addImm 32 "rax"], ∀ s s', noEffect l s s' → s' r = s r := by
    rintro r l _ s s' rfl; rfl
  obtain ⟨_, _, h3⟩ := scan_change noEffect _ "rax" hwf (hoth "rax") (hlea "rax") _ _ s s' hscan hrun
  obtain ⟨_, h2, _⟩ := scan_change noEffect _ "rcx" hwf (hoth "rcx") (hlea "rcx") _ _ s s' hscan hrun
  obtain ⟨d, e1, e2⟩ := h3 (by decide)
  have e1 : d = 32 := by simpa using e1.symm
  obtain ⟨_, e3⟩ := h2 (by decide)
  subst hm e1
  simp only [address, regVal, e2, e3]
  ring

/-- `subq %rbx, %rax` on registers. -/
def subEffect : Line → Regs → Regs → Prop := fun l s s' =>
  if l = subReg "rbx" "rax" then s' = Function.update s "rax" (s "rax" - s "rbx") else s' = s

theorem not_root_vmov (root : String) (h : root ∈ roots) : ¬ hasRoot root "vmovupd" := by
  have key : ∀ root ∈ roots, isMn root "vmovupd" = false := by decide
  exact (isMn_false_iff _ _).mp (key root h)

/-- C56 does not hold for blocks with other changes of the register: in
`vmovupd %ymm0,(%rax); add $32,%rax; sub %rbx,%rax` the second change is not seen. With 32 in `rbx` no register changes
at all, but 32 is reported. -/
theorem C56_negation_unrecognised :
    Detects [storePlain, addImm 32 "rax", subReg "rbx" "rax"] (.ok (some 32)) ∧
    ∃ s, Run subEffect [storePlain, addImm 32 "rax", subReg "rbx" "rax"] s s := by
  constructor
  · exact detects_of _ ⟨[("rax", 32)], ["rax"], true, [⟨.none, some "rax", none, 1⟩]⟩ ["rax"] _
      (by decide +kernel) (by decide) (by decide) (by decide) (by decide)
  · let s : Regs := fun r => if r = "rbx" then 32 else 0
    refine ⟨s, .cons _ _ _ s _ ?_ (.cons _ _ _ (Function.update s "rax" (s "rax" + 32)) _ ?_ (.cons _ _ _ s _ ?_ (.nil s)))⟩
    · refine .other _ _ _ "vmovupd" rfl ?_ ?_ ?_ ?_
      · rintro (h | h)
        · exact absurd h (not_root_vmov _ (by decide))
        · exact absurd h (not_root_vmov _ (by decide))
      · rintro (h | h)
        · exact absurd h (not_root_vmov _ (by decide))
        · exact absurd h (not_root_vmov _ (by decide))
      · intro h
        exact absurd h (not_root_vmov _ (by decide))
      · have : ¬ storePlain = subReg "rbx" "rax" := by decide +kernel
        simp [subEffect, this]
    · exact .add _ _ "addq" none "rax" 32 rfl (Or.inr ⟨"q", by decide, by decide⟩) rfl
    · have hne : ∀ root ∈ ["inc", "dec", "lea"], ¬ hasRoot root "subq" := by
        have key : ∀ root ∈ ["inc", "dec", "lea"], isMn root "subq" = false := by decide
        exact fun root h => (isMn_false_iff _ _).mp (key root h)
      refine .other _ _ _ "subq" rfl ?_ ?_ ?_ ?_
      · rintro (h | h)
        · exact absurd h (hne _ (by decide))
        · exact absurd h (hne _ (by decide))
      · intro _ v p r h
        simp [subReg, R] at h
      · intro h
        exact absurd h (hne _ (by decide))
      · simp only [subEffect, if_true]
        funext r
        by_cases hr : r = "rax"
        · subst hr; simp [s]
        · simp [hr]

/-- `lea 1(,%r11,8), %r11` and a store through the register. -/
def leaBlock : List Line :=
  [⟨some "vmovsd", [R "xmm0", .mem ⟨.none, none, some "r11", 8⟩], [.mem ⟨.none, none, some "r11", 8⟩], [R "xmm0"]⟩,
   ⟨some "leaq", [.mem ⟨.imm 1, none, some "r11", 8⟩, R "r11"], [R "r11"], []⟩]

/-- C56 does not hold for scaled `lea`: it multiplies the register by eight, but a constant change is reported. The change
is different in different executions. -/
theorem C56_negation_lea : Detects leaBlock (.ok (some 8)) ∧
    ∃ s1 s1' s2 s2', Run noEffect leaBlock s1 s1' ∧ Run noEffect leaBlock s2 s2' ∧
      s1' "r11" - s1 "r11" = 1 ∧ s2' "r11" - s2 "r11" = 8 := by
  constructor
  · exact detects_of _ ⟨[("r11", 1)], ["r11"], true, [⟨.none, none, some "r11", 8⟩]⟩ ["r11"] _
      (by decide +kernel) (by decide) (by decide) (by decide) (by decide)
  · have hv : ∀ root ∈ roots, ¬ hasRoot root "vmovsd" := by
      have key : ∀ root ∈ roots, isMn root "vmovsd" = false := by decide
      exact fun root h => (isMn_false_iff _ _).mp (key root h)
    have run : ∀ s : Regs, Run noEffect leaBlock s
        (Function.update s "r11" (address s ⟨.imm 1, none, some "r11", 8⟩)) := by
      intro s
      refine .cons _ _ _ s _ ?_ (.cons _ _ _ _ _ ?_ (.nil _))
      · refine .other _ _ _ "vmovsd" rfl ?_ ?_ ?_ rfl
        · rintro (h | h)
          · exact absurd h (hv _ (by decide))
          · exact absurd h (hv _ (by decide))
        · rintro (h | h)
          · exact absurd h (hv _ (by decide))
          · exact absurd h (hv _ (by decide))
        · intro h
          exact absurd h (hv _ (by decide))
      · exact .lea _ _ "leaq" none "r11" _ rfl (Or.inr ⟨"q", by decide, by decide⟩) rfl
    refine ⟨fun _ => 0, _, fun _ => 1, _, run _, run _, ?_, ?_⟩ <;> simp [address, regVal]

/-! ### C64 -/

/-- Two stores with different addressing: `(%rax)` and `(,%rcx,8)`, both registers advance by 8. -/
def twoRegs : List Line :=
  [⟨some "vmovsd", [R "xmm0", .mem ⟨.none, some "rax", none, 1⟩], [.mem ⟨.none, some "rax", none, 1⟩], [R "xmm0"]⟩,
   ⟨some "vmovsd", [R "xmm0", .mem ⟨.none, none, some "rcx", 8⟩], [.mem ⟨.none, none, some "rcx", 8⟩], [R "xmm0"]⟩,
   addImm 8 "rax", addImm 8 "rcx"]

/-- C64 does not hold: the same block gives 8 or 64, depending on the iteration order of a set of strings, which Python
changes from run to run. -/
theorem C64_negation : Detects twoRegs (.ok (some 8)) ∧ Detects twoRegs (.ok (some 64)) := by
  have hscan : scan St.init twoRegs = .ok ⟨[("rcx", 8), ("rax", 8)], ["rax", "rcx"], true,
      [⟨.none, some "rax", none, 1⟩, ⟨.none, none, some "rcx", 8⟩]⟩ := by decide +kernel
  exact ⟨detects_of _ _ ["rax", "rcx"] _ hscan (by decide) (by decide) (by decide) (by decide),
    detects_of _ _ ["rcx", "rax"] _ hscan (by decide) (by decide) (by decide) (by decide)⟩

theorem exclude_mem (refs : List Mem) (cands : List String) (r : String) :
    r ∈ exclude refs cands ↔ r ∈ cands ∧ ∀ m ∈ refs, m.base.isSome ∧ m.index.isSome → m.uses r = true := by
  unfold exclude
  induction refs generalizing cands with
  | nil => simp
  | cons m refs ih =>
    simp only [List.foldl_cons, ih, List.mem_cons, forall_eq_or_imp]
    split
    · rename_i h
      simp only [List.mem_filter]
      tauto
    · rename_i h
      tauto

theorem exclude_nodup (refs : List Mem) (cands : List String) (h : cands.Nodup) : (exclude refs cands).Nodup := by
  unfold exclude
  induction refs generalizing cands with
  | nil => exact h
  | cons m refs ih =>
    simp only [List.foldl_cons]
    apply ih
    split
    · exact h.filter _
    · exact h

/-- The candidates after exclusion are equal up to order. -/
theorem exclude_perm (st : St) (c1 c2 : List String) (h1 : IsEnum st c1) (h2 : IsEnum st c2) :
    (exclude st.refs c1).Perm (exclude st.refs c2) := by
  rw [List.perm_ext_iff_of_nodup (exclude_nodup _ _ h1.1) (exclude_nodup _ _ h2.1)]
  intro r
  rw [exclude_mem, exclude_mem, h1.2, h2.2]

theorem pick_some_of_perm (incs : List (String × Int)) (l1 l2 : List String) (hp : l1.Perm l2) (r1 : String)
    (h : pick incs l1 = some r1) :
    ∃ r2, pick incs l2 = some r2 ∧ (incs.lookup r1).getD 0 = (incs.lookup r2).getD 0 := by
  have all : ∀ x ∈ l1, (incs.lookup x).getD 0 = (incs.lookup r1).getD 0 := by
    unfold pick at h
    split at h
    · simp at h
    · simp only [Option.some.injEq] at h
      subst h
      simp
    · rename_i r rs _
      split at h
      · rename_i he
        simp only [Option.some.injEq] at h
        subst h
        rw [List.map_cons, itemsEqual_cons] at he
        intro x hx
        rcases List.mem_cons.mp hx with rfl | hx
        · rfl
        · exact he _ (List.mem_map_of_mem hx)
      · simp at h
  have hmem := pick_mem incs l1 r1 h
  cases l2 with
  | nil =>
    rw [hp.eq_nil] at hmem
    simp at hmem
  | cons a l =>
    have ha : (incs.lookup a).getD 0 = (incs.lookup r1).getD 0 := all a (hp.mem_iff.mpr (by simp))
    refine ⟨a, ?_, ha.symm⟩
    cases l with
    | nil => rfl
    | cons b l =>
      simp only [pick]
      rw [if_pos]
      rw [List.map_cons, itemsEqual_cons]
      intro x hx
      obtain ⟨y, hy, rfl⟩ := List.mem_map.mp hx
      rw [ha]
      exact all y (hp.mem_iff.mpr (List.mem_cons_of_mem _ hy))

theorem deduce_ok (st : St) (cands : List String) (henum : IsEnum st cands) (e : String) : deduce st cands ≠ .error e := by
  intro h
  unfold deduce at h
  split at h
  · simp at h
  split at h
  · simp at h
  rename_i r hp
  split at h
  · simp only at h
    split at h
    · split at h
      · rename_i hk
        have hr := exclude_sub _ _ _ (pick_mem _ _ _ hp)
        obtain ⟨_, m, hm, hu⟩ := (henum.2 r).mp hr
        have : m ∈ st.refs.filter (fun m => m.uses r) := List.mem_filter.mpr ⟨hm, hu⟩
        rw [List.map_eq_nil_iff] at hk
        rw [hk] at this
        simp at this
      · simp at h
    · simp at h
  · simp at h

/-- C64, partial: if all relevant references have the same scale and every register is changed at most once, the result
does not depend on the order of the set. Missing: references with different scales (`C64_negation`). -/
theorem C64_order_partial (block : List Line) (k : Int) (hk : ∀ m, Relevant block m → m.scale = k)
    (honce : ∀ st, scan St.init block = .ok st → st.modified.Nodup)
    (r1 r2 : Except String (Option Int)) (h1 : Detects block r1) (h2 : Detects block r2) : r1 = r2 := by
  unfold Detects at h1 h2
  cases hst : scan St.init block with
  | error e =>
    rw [hst] at h1 h2
    exact h1.trans h2.symm
  | ok st =>
    rw [hst] at h1 h2
    obtain ⟨c1, e1, d1⟩ := h1
    obtain ⟨c2, e2, d2⟩ := h2
    have key : ∀ c1 c2 p, IsEnum st c1 → IsEnum st c2 → deduce st c1 = .ok (some p) → deduce st c2 = .ok (some p) := by
      intro c1 c2 p e1 e2 h
      obtain ⟨r, k', hp, hc, ⟨m0, hm0, hu0⟩, hk', rfl⟩ := deduce_some st c1 p h
      have hkk : k' = k := by
        rw [← hk' m0 hm0 hu0]
        exact hk m0 ((scan_relevant block st hst m0).mp hm0)
      obtain ⟨r', hp', heq⟩ := pick_some_of_perm st.incs _ _ (exclude_perm st c1 c2 e1 e2) r hp
      have hr' := (e2.2 r').mp (exclude_sub _ _ _ (pick_mem _ _ _ hp'))
      have hcount : st.modified.count r' = 1 := by
        apply List.count_eq_one_of_mem (honce st hst)
        have : ∀ ls st0 st1, scan st0 ls = .ok st1 →
            (∀ x, x ∈ st0.incs.map Prod.fst → x ∈ st0.modified) → ∀ x, x ∈ st1.incs.map Prod.fst → x ∈ st1.modified := by
          intro ls
          induction ls with
          | nil =>
            intro st0 st1 h hx
            simp only [scan, Except.ok.injEq] at h
            subst h; exact hx
          | cons l ls ih =>
            intro st0 st1 h hx
            simp only [scan] at h
            cases hl : step st0 l with
            | error e => rw [hl] at h; simp at h
            | ok sm =>
              rw [hl] at h
              exact ih sm st1 h (step_keys st0 sm l hl hx)
        exact this block _ _ hst (by simp [St.init]) r' hr'.1
      obtain ⟨m', hm', hu'⟩ := hr'.2
      unfold deduce
      have hne : st.refs ≠ [] := by rintro he; rw [he] at hm0; simp at hm0
      rw [if_neg hne, hp']
      simp only [hcount, if_true]
      cases hs : (st.refs.filter fun m => m.uses r').map Mem.scale with
      | nil =>
        rw [List.map_eq_nil_iff] at hs
        have : m' ∈ st.refs.filter (fun m => m.uses r') := List.mem_filter.mpr ⟨hm', hu'⟩
        rw [hs] at this
        simp at this
      | cons a l =>
        have hall : ∀ x ∈ a :: l, x = k := by
          intro x hx
          rw [← hs] at hx
          obtain ⟨m, hm, rfl⟩ := List.mem_map.mp hx
          exact hk m ((scan_relevant block st hst m).mp (List.mem_filter.mp hm).1)
        have ha := hall a (by simp)
        have hi : itemsEqual (a :: l) = true := by
          rw [itemsEqual_cons]
          intro x hx
          rw [ha]
          exact hall x (by simp [hx])
        subst ha
        simp [hi, hkk, heq]
    rw [d1, d2]
    cases hd1 : deduce st c1 with
    | error e => exact absurd hd1 (deduce_ok st c1 e1 e)
    | ok o1 =>
      cases hd2 : deduce st c2 with
      | error e => exact absurd hd2 (deduce_ok st c2 e2 e)
      | ok o2 =>
        cases o1 with
        | some p =>
          rw [key c1 c2 p e1 e2 hd1] at hd2
          exact hd2
        | none =>
          cases o2 with
          | none => rfl
          | some p =>
            rw [key c2 c1 p e2 e1 hd2] at hd1
            exact hd1.symm

/-- The usual loop body meets the hypotheses of `C64_order_partial`. -/
example : (∀ m, Relevant loopBody m → m.scale = 8) ∧ ∀ st, scan St.init loopBody = .ok st → st.modified.Nodup := by
  have hscan : scan St.init loopBody = .ok ⟨[("rcx", 4)], ["rcx"], true, [⟨.none, some "rax", some "rcx", 8⟩]⟩ := by
    decide +kernel
  refine ⟨fun m hm => ?_, fun st h => ?_⟩
  · have := (scan_relevant _ _ hscan m).mpr hm
    simp only [List.mem_singleton] at this
    rw [this]
  · rw [hscan] at h
    simp only [Except.ok.injEq] at h
    rw [← h]
    decide

/-- C56: the detection itself never fails after the block was scanned. -/
theorem C56_no_late_error (block : List Line) (st : St) (h : scan St.init block = .ok st) (e : String) :
    ¬ Detects block (.error e) := by
  unfold Detects
  rw [h]
  rintro ⟨c, hc, hd⟩
  exact deduce_ok st c hc e hd.symm

/-- C56, partial: in every block of well-formed instructions, also with other changes of registers, a reported increment
comes from exactly one instruction that has the form of an addition to the chosen address register, and from the common
scale of its references. Missing: that the instruction adds (`C56_negation_lea`) and that no other instruction changes
the register (`C56_negation_unrecognised`). -/
theorem C56_one_instruction_partial (block : List Line) (hwf : ∀ l ∈ block, WellFormed l) (p : Int)
    (h : Detects block (.ok (some p))) :
    ∃ r d k, p = k * d ∧ AddressReg block r ∧ (∀ m, Relevant block m → UsesReg m r → m.scale = k) ∧
      ∃ pre l post, block = pre ++ l :: post ∧ Adds r l d ∧ ∀ l' ∈ pre ++ post, ∀ d', ¬ Adds r l' d' := by
  unfold Detects at h
  cases hst : scan St.init block with
  | error e => rw [hst] at h; simp at h
  | ok st =>
    rw [hst] at h
    obtain ⟨cands, _, hd⟩ := h
    obtain ⟨r, k, _, hc, ⟨m0, hm0, hu0⟩, hk, hp⟩ := deduce_some st cands p hd.symm
    obtain ⟨_, _, h3⟩ := scan_adds block r hwf St.init st hst
    obtain ⟨d, pre, l, post, e1, e2, e3, e4⟩ := h3 (by simpa [St.init] using hc)
    refine ⟨r, d, k, by rw [hp, e3]; rfl, ⟨m0, (scan_relevant block st hst m0).mp hm0, hu0⟩,
      fun m hm hum => hk m ((scan_relevant block st hst m).mpr hm) hum, pre, l, post, e1, e2, e4⟩

/-- `vmovupd %ymm0,(%rax); add $32,%rax; sub %rbx,%rax` -/
example : (∀ l ∈ [storePlain, addImm 32 "rax", subReg "rbx" "rax"], WellFormed l) ∧
    Detects [storePlain, addImm 32 "rax", subReg "rbx" "rax"] (.ok (some 32)) := by
  refine ⟨?_, C56_negation_unrecognised.1⟩
  intro l hl
  simp only [List.mem_cons, List.not_mem_nil, or_false] at hl
  rcases hl with rfl | rfl | rfl
  · exact wf_vmov _ rfl
  · exact wf_addImm _ _
  · intro m hm
    have hm' : m = "subq" := by simpa [subReg] using hm.symm
    subst hm'
    have key : ∀ root ∈ ["inc", "dec", "lea"], ¬ hasRoot root "subq" := by
      have key : ∀ root ∈ ["inc", "dec", "lea"], isMn root "subq" = false := by decide
      exact fun root h => (isMn_false_iff _ _).mp (key root h)
    refine ⟨?_, fun _ => ⟨_, _, rfl⟩, fun h => absurd h (key _ (by decide))⟩
    rintro (h | h)
    · exact absurd h (key _ (by decide))
    · exact absurd h (key _ (by decide))

end Verif.Asm
