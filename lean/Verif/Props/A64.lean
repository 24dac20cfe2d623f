import Verif.Lemmas.A64

/-!
C93: pointer increments in AArch64 code.
-/

namespace Verif.A64

theorem detect_ok (block : List Line) (res : Option Int) (h : detect block = .ok res) :
    ∃ st refs st', first block = .ok (st, refs) ∧ derive block st = .ok st' ∧ res = deduce st' refs := by
  unfold detect at h
  simp only [bind, Except.bind] at h
  split at h
  · cases h
  · rename_i x h1
    obtain ⟨st, refs⟩ := x
    simp only at h
    split at h
    · cases h
    · rename_i st' h2
      simp only [Except.ok.injEq] at h
      exact ⟨st, refs, st', h1, h2, h.symm⟩

/-- C93: the names under which registers are counted tell apart different registers, and nothing else. -/
theorem C93_names (a b : Reg) (ha : General a ∨ a.pre.toList.length = 1) (hb : General b ∨ b.pre.toList.length = 1) :
    norm a = norm b ↔ Same a b := by
  have key : ∀ r : Reg, (General r ∨ r.pre.toList.length = 1) → ∃ c : Char, norm r = String.ofList [c] ++ r.name ∧
      ((General r ∧ c = 'x') ∨ (¬ General r ∧ r.pre = String.ofList [c])) := by
    intro r hr
    by_cases hg : General r
    · refine ⟨'x', ?_, .inl ⟨hg, rfl⟩⟩
      unfold norm
      rcases hg with h | h | h <;> rw [h] <;> rfl
    · obtain ⟨c, hc⟩ := List.length_eq_one_iff.1 (hr.resolve_left hg)
      have hp : r.pre = String.ofList [c] := by rw [← hc, String.ofList_toList]
      refine ⟨c, ?_, .inr ⟨hg, hp⟩⟩
      unfold norm
      rw [if_neg, hp]
      intro h
      simp only [List.mem_cons, List.not_mem_nil, or_false] at h
      rcases h with h | h | h | h
      · exact hg (.inl h)
      · exact hg (.inr (.inr h))
      · exact hg (.inr (.inl h))
      · rw [h] at hc; cases hc
  obtain ⟨c, e1, h1⟩ := key a ha
  obtain ⟨d, e2, h2⟩ := key b hb
  have hinj : norm a = norm b ↔ c = d ∧ a.name = b.name := by
    rw [e1, e2, ← String.toList_inj, ← String.toList_inj]
    simp
  have hx : ∀ r : Reg, ¬ General r → r.pre ≠ String.ofList ['x'] := fun r hr h => hr (.inr (.inl h))
  rw [hinj, Same]
  constructor
  · rintro ⟨rfl, hn⟩
    refine ⟨hn, ?_⟩
    rcases h1 with ⟨g1, rfl⟩ | ⟨g1, h1⟩ <;> rcases h2 with ⟨g2, h2⟩ | ⟨g2, h2⟩
    · exact .inr ⟨g1, g2⟩
    · exact absurd h2 (hx b g2)
    · exact absurd (h2 ▸ h1) (hx a g1)
    · exact .inl (h1.trans h2.symm)
  · rintro ⟨hn, h⟩
    refine ⟨?_, hn⟩
    have hgg : General a ↔ General b := by
      rcases h with h | ⟨g1, g2⟩
      · simp only [General, h]
      · exact ⟨fun _ => g2, fun _ => g1⟩
    rcases h1 with ⟨g1, rfl⟩ | ⟨g1, h1⟩ <;> rcases h2 with ⟨g2, h2⟩ | ⟨g2, h2⟩
    · exact h2.symm
    · exact absurd (hgg.1 g1) g2
    · exact absurd (hgg.2 g2) g1
    · rcases h with h | ⟨g, -⟩
      · have : String.ofList [c] = String.ofList [d] := by rw [← h1, ← h2, h]
        rw [String.ofList_inj] at this
        simpa using this
      · exact absurd g g1

example : norm ⟨"w", "3", 0⟩ = norm ⟨"x", "3", 2⟩ ∧ norm ⟨"d", "3", 0⟩ ≠ norm ⟨"x", "3", 0⟩ := by decide

/-- C93: every increment found for a register is its movement from one iteration to the next, in all executions. Missing:
updates by registers (`C93_negation_update`), registers that are computed and overwritten (`C93_negation_overwritten`),
shifts in sums (`C93_negation_shift`), subtraction of constants (`C93_negation_difference`). -/
theorem C93_registers_partial (block : List Line) (hw : ∀ l ∈ block, WellFormed l) (ht : Tidy block) (st st' : St)
    (refs : List Mem) (h1 : first block = .ok (st, refs)) (h2 : derive block st = .ok st') (r : String) (d : Int)
    (h : st'.incs (some r) = some d) : Moves block r d := by
  obtain ⟨hm, hs, -⟩ := first_spec block hw st refs h1
  obtain ⟨r', hr, -, hmv⟩ := (derive_good block hw ht st st' hm hs h2).1 _ _ h
  simp only [Option.some.injEq] at hr
  exact hr ▸ hmv

/-- Is the optional register written in the block? -/
def Changes (block : List Line) (o : Option Reg) : Prop := ∃ x, o = some x ∧ Modified block (norm x)

/-- The address depends on one register that changes: the base, or a counter as index. -/
def Simple (block : List Line) (m : Mem) : Prop :=
  ¬ Changes block m.index ∨ (¬ Changes block m.base ∧ ∃ i v, m.index = some i ∧ Counter block (norm i) v)

/-- The scale of the address: that of the index if it changes, otherwise one. -/
def HasScale (block : List Line) (c : Int) (m : Mem) : Prop :=
  (Changes block m.index → ∃ i, m.index = some i ∧ c = 2 ^ i.shift) ∧ (¬ Changes block m.index → c = 1)

/-- C93: a reported increment is the movement of all relevant addresses that change, in all executions. Missing: the cases of
`C93_registers_partial`, different scales (`C93_negation_scale`), addresses in which both registers change
(`C93_negation_both`), and other indices (`C93_negation_index`). -/
theorem C93_addresses_partial (block : List Line) (hw : ∀ l ∈ block, WellFormed l) (ht : Tidy block) (x : Int)
    (h : detect block = .ok (some x)) (c : Int) (hsimple : ∀ m, Relevant block m → Simple block m)
    (hscale : ∀ m, Relevant block m → Changes block m.base ∨ Changes block m.index → HasScale block c m) (m : Mem)
    (hrel : Relevant block m) (hch : Changes block m.base ∨ Changes block m.index) : AddressMoves block m x := by
  obtain ⟨st, refs, st', h1, h2, h3⟩ := detect_ok block _ h
  obtain ⟨hm, hs, hrefs⟩ := first_spec block hw st refs h1
  have hinv := derive_good block hw ht st st' hm hs h2
  have hcount : ∀ r v, Counter block r v → st'.incs (some r) = some v := by
    intro r v hc
    exact (counter_derive block hw r v hc st st' hm (counter_first block hw r v hc st refs h1) h2).1
  have hmem : ∀ m, m ∈ refs ↔ Relevant block m := fun m => by rw [hrefs]; exact mem_refs block m
  -- the register chosen for a reference
  have hbase : ∀ m, ¬ Changes block m.index → addressReg st'.incs m = (m.base.map norm, 1) := by
    intro m hn
    unfold addressReg
    split
    · rename_i i hi
      rw [if_neg]
      intro hsome
      obtain ⟨d, hd⟩ := Option.isSome_iff_exists.1 hsome
      obtain ⟨r, hr, hmod, -⟩ := hinv.1 _ _ hd
      simp only [Option.some.injEq] at hr
      exact hn ⟨i, hi, hr ▸ hmod⟩
    · rfl
  have hindex : ∀ m i v, m.index = some i → Counter block (norm i) v →
      addressReg st'.incs m = (some (norm i), 2 ^ i.shift) := by
    intro m i v hi hc
    unfold addressReg
    rw [hi]
    simp only
    rw [if_pos]
    rw [hcount _ _ hc]; rfl
  have hcmod : ∀ r v, Counter block r v → Modified block r := by
    rintro r v ⟨_, _, _, _, _, _, _, rfl, h1⟩
    unfold Modified; omega
  obtain ⟨d, hxd, hreg⟩ := deduce_spec st' refs x h3.symm c (by
    intro m hm hsome
    have hR := (hmem m).1 hm
    rcases hsimple m hR with hn | ⟨hnb, i, v, hi, hc⟩
    · rw [hbase m hn] at hsome ⊢
      obtain ⟨d, hd⟩ := Option.isSome_iff_exists.1 hsome
      obtain ⟨r, hr, hmod, -⟩ := hinv.1 _ _ hd
      obtain ⟨b, hb, rfl⟩ := Option.map_eq_some_iff.1 hr
      exact ((hscale m hR (.inl ⟨b, hb, hmod⟩)).2 hn).symm
    · rw [hindex m i v hi hc]
      obtain ⟨j, hj, hcj⟩ := (hscale m hR (.inr ⟨i, hi, hcmod _ _ hc⟩)).1 ⟨i, hi, hcmod _ _ hc⟩
      rw [hi, Option.some.injEq] at hj
      rw [hcj, hj])
  have hreg := hreg m ((hmem m).2 hrel)
  have hval : ∀ o, ¬ Changes block o → ∃ warm, ∀ n st, Loop block n st → ∀ k, warm ≤ k → k + 1 < n → ∀ p ≤ block.length,
      regVal (st (k + 1) p) o = regVal (st k p) o ∧
      (o.map fun b => st (k + 1) p (norm b)).getD 0 = (o.map fun b => st k p (norm b)).getD 0 := by
    intro o ho
    cases o with
    | none => exact ⟨0, fun _ _ _ _ _ _ _ _ => ⟨rfl, rfl⟩⟩
    | some b =>
      obtain ⟨warm, hmv⟩ := moves_constant block hw (norm b) fun hb => ho ⟨b, rfl, hb⟩
      refine ⟨warm, fun n st hl k hk hkn p hp => ?_⟩
      have := hmv n st hl k hk hkn p hp
      have e : st (k + 1) p (norm b) = st k p (norm b) := by omega
      exact ⟨by simp [regVal, e], by simp [e]⟩
  rcases hsimple m hrel with hn | ⟨hnb, i, v, hi, hc⟩
  · obtain ⟨b, hb, hmod⟩ := hch.resolve_right hn
    rw [hbase m hn, hb, Option.map_some] at hreg
    obtain ⟨r, hr, -, warm, hmv⟩ := hinv.1 _ _ (hreg (hinv.2 _ hmod))
    simp only [Option.some.injEq] at hr
    subst hr
    obtain ⟨warm', hcv⟩ := hval m.index hn
    have h1 := (hscale m hrel hch).2 hn
    refine ⟨max warm warm', fun n st hl k hk hkn p hp => ?_⟩
    have e1 := hmv n st hl k (by omega) hkn p hp
    have e2 := (hcv n st hl k (by omega) hkn p hp).1
    unfold address
    rw [e2, hb, hxd, h1]
    simp only [Option.map_some, Option.getD_some]
    omega
  · rw [hindex m i v hi hc] at hreg
    obtain ⟨r, hr, -, warm, hmv⟩ := hinv.1 _ _ (hreg (hinv.2 _ (hcmod _ _ hc)))
    simp only [Option.some.injEq] at hr
    subst hr
    obtain ⟨warm', hcv⟩ := hval m.base hnb
    obtain ⟨j, hj, hcj⟩ := (hscale m hrel hch).1 ⟨i, hi, hcmod _ _ hc⟩
    rw [hi, Option.some.injEq] at hj
    subst hj
    refine ⟨max warm warm', fun n st hl k hk hkn p hp => ?_⟩
    have e1 := hmv n st hl k (by omega) hkn p hp
    have e2 := (hcv n st hl k (by omega) hkn p hp).2
    unfold address
    rw [e2, hi, hxd, hcj, ← e1]
    simp only [regVal]
    ring

/-- C93: pointers that are moved by one addition of the same constant are recognised. -/
theorem C93_found (block : List Line) (hw : ∀ l ∈ block, WellFormed l) (v : Int) (hex : ∃ m, Relevant block m)
    (hptr : ∀ m, Relevant block m → m.index = none ∧ ∃ b, m.base = some b ∧ Counter block (norm b) v)
    (res : Option Int) (h : detect block = .ok res) : res = some v := by
  obtain ⟨st, refs, st', h1, h2, rfl⟩ := detect_ok block _ h
  obtain ⟨hm, hs, hrefs⟩ := first_spec block hw st refs h1
  have hcount : ∀ r v, Counter block r v → st'.incs (some r) = some v ∧ st'.mods (some r) = some 1 := fun r v hc =>
    counter_derive block hw r v hc st st' hm (counter_first block hw r v hc st refs h1) h2
  have hmem : ∀ m, m ∈ refs ↔ Relevant block m := fun m => by rw [hrefs]; exact mem_refs block m
  have hkey : ∀ m ∈ refs, ∃ r, addressReg st'.incs m = (some r, 1) ∧ Counter block r v := by
    intro m hm
    obtain ⟨hi, b, hb, hc⟩ := hptr m ((hmem m).1 hm)
    exact ⟨norm b, by simp [addressReg, hi, hb], hc⟩
  have hall : ∀ k ∈ (refs.map (addressReg st'.incs)).map (·.1), st'.incs k = some v ∧ st'.mods k = some 1 := by
    intro k hk
    obtain ⟨x, hx, rfl⟩ := List.mem_map.1 hk
    obtain ⟨m, hm, rfl⟩ := List.mem_map.1 hx
    obtain ⟨r, hr, hc⟩ := hkey m hm
    rw [hr]
    exact hcount r v hc
  have hfil : ((refs.map (addressReg st'.incs)).map (·.1)).filter (fun k => (st'.mods k).isSome) =
      (refs.map (addressReg st'.incs)).map (·.1) := by
    rw [List.filter_eq_self]
    intro k hk
    rw [(hall k hk).2]; rfl
  obtain ⟨m0, hm0⟩ := hex
  have hne : (refs.map (addressReg st'.incs)).map (·.1) ≠ [] := by
    have := (hmem m0).2 hm0
    intro h
    simp only [List.map_eq_nil_iff] at h
    rw [h] at this; cases this
  unfold deduce
  simp only
  rw [hfil]
  split
  · rename_i h; exact absurd h hne
  · rename_i a rest ha
    rw [ha] at hall
    have hconst : (a :: rest).map (fun k => (st'.incs k).getD 0) = List.replicate (rest.length + 1) v := by
      rw [List.eq_replicate_iff]
      refine ⟨by simp, ?_⟩
      intro x hx
      obtain ⟨k, hk, rfl⟩ := List.mem_map.1 hx
      rw [(hall k hk).1]; rfl
    rw [if_pos]
    · rw [(hall a (by simp)).1, scales_eq _ a 1]
      · simp
      · intro y hy _
        obtain ⟨m, hm, rfl⟩ := List.mem_map.1 hy
        obtain ⟨r, hr, -⟩ := hkey m hm
        rw [hr]
      · exact .inl rfl
    · refine ⟨?_, ?_⟩
      · rw [List.all_eq_true]
        intro k hk
        rw [(hall k hk).1]; rfl
      · rw [hconst]
        simp [Asm.itemsEqual, List.replicate_succ]

/-- C93: every block can be executed, from all register contents and for any number of iterations, so that the
claims are not empty. -/
theorem C93_executions (block : List Line) (s0 : Regs) (n : Nat) :
    ∃ st, Loop block n st ∧ st 0 0 = s0 := loops_exist block s0 n

/-- C93: there is only one movement. -/
theorem C93_movement_unique (block : List Line) (m : Mem) (d d' : Int)
    (h : AddressMoves block m d) (h' : AddressMoves block m d') : d = d' := by
  obtain ⟨w, h⟩ := h
  obtain ⟨w', h'⟩ := h'
  obtain ⟨st, hl, -⟩ := loops_exist block (fun _ => 0) (max w w' + 2)
  rw [← h _ st hl (max w w') (by omega) (by omega) 0 (by omega), h' _ st hl (max w w') (by omega) (by omega) 0 (by omega)]

/-! ### Examples -/

/-- 64 bit register. -/
def x (n : String) : Reg := ⟨"x", n, 0⟩

/-- `add d, a, #v` -/
def addI (d a : Reg) (v : Int) : Line := ⟨some "add", [.reg d, .reg a, .imm v], [.reg a, .imm v], [.reg d], []⟩

/-- `sub d, a, #v` -/
def subI (d a : Reg) (v : Int) : Line := ⟨some "sub", [.reg d, .reg a, .imm v], [.reg a, .imm v], [.reg d], []⟩

/-- `add d, a, b` -/
def addR (d a b : Reg) : Line := ⟨some "add", [.reg d, .reg a, .reg b], [.reg a, .reg b], [.reg d], []⟩

/-- `sub d, a, b` -/
def subR (d a b : Reg) : Line := ⟨some "sub", [.reg d, .reg a, .reg b], [.reg a, .reg b], [.reg d], []⟩

/-- `lsl d, a, #v` -/
def lsl (d a : Reg) (v : Int) : Line := ⟨some "lsl", [.reg d, .reg a, .imm v], [.reg a, .imm v], [.reg d], []⟩

/-- `str d0, m` -/
def str (m : Mem) : Line := ⟨some "str", [.reg ⟨"d", "0", 0⟩, .mem m], [.reg ⟨"d", "0", 0⟩], [.mem m], []⟩

theorem wf_addI (d a : Reg) (v : Int) : WellFormed (addI d a v) :=
  ⟨fun _ _ _ => ⟨d, .reg a, .imm v, rfl, by simp [addI, lineCount, Operand.named]⟩, by simp [addI, mems], by simp [addI]⟩

theorem wf_subI (d a : Reg) (v : Int) : WellFormed (subI d a v) :=
  ⟨fun _ _ _ => ⟨d, .reg a, .imm v, rfl, by simp [subI, lineCount, Operand.named]⟩, by simp [subI, mems], by simp [subI]⟩

theorem wf_addR (d a b : Reg) : WellFormed (addR d a b) :=
  ⟨fun _ _ _ => ⟨d, .reg a, .reg b, rfl, by simp [addR, lineCount, Operand.named]⟩, by simp [addR, mems], by simp [addR]⟩

theorem wf_subR (d a b : Reg) : WellFormed (subR d a b) :=
  ⟨fun _ _ _ => ⟨d, .reg a, .reg b, rfl, by simp [subR, lineCount, Operand.named]⟩, by simp [subR, mems], by simp [subR]⟩

theorem wf_lsl (d a : Reg) (v : Int) : WellFormed (lsl d a v) :=
  ⟨fun _ _ _ => ⟨d, .reg a, .imm v, rfl, by simp [lsl, lineCount, Operand.named]⟩, by simp [lsl, mems], by simp [lsl]⟩

theorem wf_str (m : Mem) (h : m.writesBack = true → ∃ r v, WritesBack m r v) : WellFormed (str m) :=
  ⟨by intro mn h; simp only [str, Option.some.injEq] at h; subst h; exact fun h => absurd h (by decide), by simpa [str, mems] using h, by simp [str]⟩

/-- An index, its multiple, an address, a store there and one with update of the base. -/
def sample : List Line :=
  [lsl (x "3") (x "1") 3, addR (x "4") (x "0") (x "3"), str { base := some (x "4") },
   str { base := some (x "5"), post := .imm 8 }, addI (x "1") (x "1") 1]

theorem sample_wf : ∀ l ∈ sample, WellFormed l := by
  intro l hl
  simp only [sample, List.mem_cons, List.not_mem_nil, or_false] at hl
  rcases hl with rfl | rfl | rfl | rfl | rfl
  · exact wf_lsl _ _ _
  · exact wf_addR _ _ _
  · exact wf_str _ (by simp [Mem.writesBack])
  · exact wf_str _ fun _ => ⟨_, _, .post _ (x "5") 8 rfl rfl rfl⟩
  · exact wf_addI _ _ _

theorem sample_tidy : Tidy sample := by
  refine ⟨?_, ?_, ?_⟩
  · intro l hl hm d a v ho
    simp only [sample, List.mem_cons, List.not_mem_nil, or_false] at hl
    rcases hl with rfl | rfl | rfl | rfl | rfl
    · simp only [lsl, List.cons.injEq, Operand.reg.injEq] at ho
      rw [← ho.1]; decide
    all_goals simp [addR, str, addI] at hm
  · intro l hl mn _ _ d a b ho
    simp only [sample, List.mem_cons, List.not_mem_nil, or_false] at hl
    rcases hl with rfl | rfl | rfl | rfl | rfl
    · simp [lsl] at ho
    · simp only [addR, List.cons.injEq, Operand.reg.injEq] at ho
      obtain ⟨rfl, rfl, rfl, -⟩ := ho
      decide
    · simp [str] at ho
    · simp [str] at ho
    · simp [addI] at ho
  · intro l hl mn hmn hm d a b ho
    simp only [sample, List.mem_cons, List.not_mem_nil, or_false] at hl
    rcases hl with rfl | rfl | rfl | rfl | rfl
    · simp [lsl] at ho
    · simp only [addR, Option.some.injEq] at hm; rw [← hm] at hmn; exact absurd hmn (by decide)
    · simp [str] at ho
    · simp [str] at ho
    · simp [addI] at ho

/-- The sample meets the hypotheses of C93, and 8 is reported. -/
example : detect sample = .ok (some 8) ∧ Relevant sample { base := some (x "4") } ∧
    Changes sample (some (x "4")) ∧ (∀ m, Relevant sample m → Simple sample m) ∧
    ∀ m, Relevant sample m → HasScale sample 1 m := by
  have hst : ∀ m, Relevant sample m → m.index = none := by
    intro m hm
    rw [← mem_refs] at hm
    have e : (sample.foldl (stepRefs (modsOf sample)) ([], false)).1 =
        [{ base := some (x "4") }, { base := some (x "5"), post := .imm 8 }] := by decide +kernel
    rw [e] at hm
    simp only [List.mem_cons, List.not_mem_nil, or_false] at hm
    rcases hm with rfl | rfl <;> rfl
  refine ⟨by decide +kernel, ?_, ⟨x "4", rfl, by unfold Modified; decide⟩, ?_, ?_⟩
  · exact .inl ⟨_, by simp only [sample, List.mem_cons]; exact .inr (.inr (.inl rfl)), by simp [str], by simp [str], by simp,
      x "4", by simp, by unfold Modified; decide⟩
  · intro m hm
    exact .inl (by simp [Changes, hst m hm])
  · intro m hm
    exact ⟨by simp [Changes, hst m hm], fun _ => rfl⟩

/-- A loop whose pointer is moved by one addition: hypotheses of `C93_found`. -/
example : Counter [str { base := some (x "0") }, addI (x "0") (x "0") 16] (norm (x "0")) 16 ∧
    detect [str { base := some (x "0") }, addI (x "0") (x "0") 16] = .ok (some 16) :=
  ⟨⟨addI (x "0") (x "0") 16, by simp, "add", by simp, x "0", rfl, rfl, rfl, by decide⟩, by decide +kernel⟩

/-! ### Negations -/

theorem base_moves (block : List Line) (b : Reg) (d : Int) (h : Moves block (norm b) d) : AddressMoves block { base := some b } d := by
  obtain ⟨w, h⟩ := h
  refine ⟨w, fun n st hl k hk hkn p hp => ?_⟩
  have := h n st hl k hk hkn p hp
  simp only [address, regVal, Option.map_some, Option.getD_some]
  omega

theorem both_move (block : List Line) (b i : Reg) (d e : Int) (h : Moves block (norm b) d) (h' : Moves block (norm i) e) :
    AddressMoves block { base := some b, index := some i } (d + e * 2 ^ i.shift) := by
  obtain ⟨w, h⟩ := h
  obtain ⟨w', h'⟩ := h'
  refine ⟨max w w', fun n st hl k hk hkn p hp => ?_⟩
  have e1 := h n st hl k (by omega) hkn p hp
  have e2 := h' n st hl k (by omega) hkn p hp
  simp only [address, regVal, Option.map_some, Option.getD_some]
  rw [← e1, ← e2]
  ring

theorem addI_moves (block : List Line) (hw : ∀ l ∈ block, WellFormed l) (a : Reg) (v : Int) (h1 : writeCount block (norm a) = 1)
    (hl : addI a a v ∈ block) : Moves block (norm a) v := by
  obtain ⟨p, hp, e⟩ := List.getElem_of_mem hl
  refine moves_add block hw _ v h1 p hp (by rw [e]; simp [addI, lineCount, Operand.named]) ?_
  intro s s' h
  rw [e] at h
  simp only [Exec, addI, true_or, if_true] at h
  rw [h, Function.update_self]

theorem subI_moves (block : List Line) (hw : ∀ l ∈ block, WellFormed l) (a : Reg) (v : Int) (h1 : writeCount block (norm a) = 1)
    (hl : subI a a v ∈ block) : Moves block (norm a) (-v) := by
  obtain ⟨p, hp, e⟩ := List.getElem_of_mem hl
  refine moves_add block hw _ (-v) h1 p hp (by rw [e]; simp [subI, lineCount, Operand.named]) ?_
  intro s s' h
  rw [e] at h
  simp [Exec, subI] at h
  rw [h, Function.update_self]
  ring

/-- Plain references to memory without update. -/
theorem wf_plain (b : Reg) (i : Option Reg) : WellFormed (str { base := some b, index := i }) :=
  wf_str _ (by simp [Mem.writesBack])

theorem stored_base (block : List Line) (b : Reg) (i : Option Reg) (hb : Modified block (norm b))
    (hl : str { base := some b, index := i } ∈ block) : Relevant block { base := some b, index := i } :=
  .inl ⟨_, hl, by simp [str], by simp [str], by simp, b, by simp, hb⟩

theorem stored_index (block : List Line) (b i : Reg) (hb : Modified block (norm i))
    (hl : str { base := some b, index := some i } ∈ block) : Relevant block { base := some b, index := some i } :=
  .inl ⟨_, hl, by simp [str], by simp [str], by simp, i, by simp, hb⟩

/-- `x4 = x1 - x0`, `x0` is constant -/
def difference : List Line := [subR (x "4") (x "1") (x "0"), str { base := some (x "4") }, addI (x "1") (x "1") 8]

theorem difference_wf : ∀ l ∈ difference, WellFormed l := by
  simp only [difference, List.mem_cons, List.not_mem_nil, or_false, forall_eq_or_imp, forall_eq]
  exact ⟨wf_subR _ _ _, wf_plain _ _, wf_addI _ _ _⟩

/-- C93 is false for `x4 = x1 - x0` with constant `x0`: the sign is wrong. -/
theorem C93_negation_difference : ∃ block m, (∀ l ∈ block, WellFormed l) ∧ Relevant block m ∧
    detect block = .ok (some (-8)) ∧ AddressMoves block m 8 ∧ ¬ AddressMoves block m (-8) := by
  have hm : AddressMoves difference { base := some (x "4") } 8 := by
    apply base_moves
    obtain ⟨w, h1⟩ := addI_moves difference difference_wf (x "1") 8 (by decide) (by simp [difference])
    obtain ⟨w', h0⟩ := moves_constant difference difference_wf (norm (x "0")) (by unfold Modified; decide)
    refine moves_derived _ difference_wf _ 8 (by decide) 0 (by simp [difference]) (by decide) (max w w') ?_
    intro n st hl k hk hkn
    have e : ∀ k < n, st k 1 (norm (x "4")) = st k 0 (norm (x "1")) - st k 0 (norm (x "0")) := by
      intro k hk
      have := hl.line k hk 0 (by simp [difference])
      simp [Exec, subR, difference] at this
      rw [this, Function.update_self]
      simp [x]
    have e1 := h1 n st hl k (by omega) hkn 0 (by simp)
    have e0 := h0 n st hl k (by omega) hkn 0 (by simp)
    rw [e (k + 1) hkn, e k (by omega)]
    omega
  exact ⟨difference, _, difference_wf, stored_base _ (x "4") none (by unfold Modified; decide) (by simp [difference]),
    by decide +kernel, hm, fun h => absurd (C93_movement_unique _ _ _ _ hm h) (by decide)⟩

/-- `x4 = x0 + 8 * x1` -/
def shifted : List Line :=
  [addR (x "4") (x "0") { x "1" with shift := 3 }, str { base := some (x "4") }, addI (x "1") (x "1") 1]

theorem shifted_wf : ∀ l ∈ shifted, WellFormed l := by
  simp only [shifted, List.mem_cons, List.not_mem_nil, or_false, forall_eq_or_imp, forall_eq]
  exact ⟨wf_addR _ _ _, wf_plain _ _, wf_addI _ _ _⟩

/-- C93 is false for `add x4, x0, x1, lsl #3`: the shift is ignored. -/
theorem C93_negation_shift : ∃ block m, (∀ l ∈ block, WellFormed l) ∧ Relevant block m ∧
    detect block = .ok (some 1) ∧ AddressMoves block m 8 ∧ ¬ AddressMoves block m 1 := by
  have hm : AddressMoves shifted { base := some (x "4") } 8 := by
    apply base_moves
    obtain ⟨w, h1⟩ := addI_moves shifted shifted_wf (x "1") 1 (by decide) (by simp [shifted])
    obtain ⟨w', h0⟩ := moves_constant shifted shifted_wf (norm (x "0")) (by unfold Modified; decide)
    refine moves_derived _ shifted_wf _ 8 (by decide) 0 (by simp [shifted]) (by decide) (max w w') ?_
    intro n st hl k hk hkn
    have e : ∀ k < n, st k 1 (norm (x "4")) = st k 0 (norm (x "0")) + st k 0 (norm (x "1")) * 8 := by
      intro k hk
      have := hl.line k hk 0 (by simp [shifted])
      simp [Exec, addR, shifted] at this
      rw [this, Function.update_self]
      simp [x, norm]
    have e1 := h1 n st hl k (by omega) hkn 0 (by simp)
    have e0 := h0 n st hl k (by omega) hkn 0 (by simp)
    rw [e (k + 1) hkn, e k (by omega)]
    omega
  exact ⟨shifted, _, shifted_wf, stored_base _ (x "4") none (by unfold Modified; decide) (by simp [shifted]),
    by decide +kernel, hm, fun h => absurd (C93_movement_unique _ _ _ _ hm h) (by decide)⟩

/-- The multiple of the index is overwritten before it is used. -/
def overwritten : List Line :=
  [lsl (x "3") (x "1") 3, addI (x "3") (x "9") 0, addR (x "4") (x "0") (x "3"), str { base := some (x "4") },
   addI (x "1") (x "1") 1]

theorem overwritten_wf : ∀ l ∈ overwritten, WellFormed l := by
  simp only [overwritten, List.mem_cons, List.not_mem_nil, or_false, forall_eq_or_imp, forall_eq]
  exact ⟨wf_lsl _ _ _, wf_addI _ _ _, wf_addR _ _ _, wf_plain _ _, wf_addI _ _ _⟩

/-- C93 is false if the result of the shift is overwritten. -/
theorem C93_negation_overwritten : ∃ block m, (∀ l ∈ block, WellFormed l) ∧ Relevant block m ∧
    detect block = .ok (some 8) ∧ AddressMoves block m 0 ∧ ¬ AddressMoves block m 8 := by
  have hm : AddressMoves overwritten { base := some (x "4") } 0 := by
    apply base_moves
    obtain ⟨w, h9⟩ := moves_constant overwritten overwritten_wf (norm (x "9")) (by unfold Modified; decide)
    obtain ⟨w', h0⟩ := moves_constant overwritten overwritten_wf (norm (x "0")) (by unfold Modified; decide)
    refine moves_derived _ overwritten_wf _ 0 (by decide) 2 (by simp [overwritten]) (by decide) (max w w') ?_
    intro n st hl k hk hkn
    have e : ∀ k < n, st k 3 (norm (x "4")) = st k 2 (norm (x "0")) + st k 2 (norm (x "3")) := by
      intro k hk
      have := hl.line k hk 2 (by simp [overwritten])
      simp [Exec, addR, overwritten] at this
      rw [this, Function.update_self]
      simp [x, norm]
    have f : ∀ k < n, st k 2 (norm (x "3")) = st k 1 (norm (x "9")) := by
      intro k hk
      have := hl.line k hk 1 (by simp [overwritten])
      simp [Exec, addI, overwritten] at this
      rw [this, Function.update_self]
    have e1 := h9 n st hl k (by omega) hkn 1 (by simp [overwritten])
    have e0 := h0 n st hl k (by omega) hkn 2 (by simp [overwritten])
    rw [e (k + 1) hkn, e k (by omega), f (k + 1) hkn, f k (by omega)]
    omega
  exact ⟨overwritten, _, overwritten_wf, stored_base _ (x "4") none (by unfold Modified; decide) (by simp [overwritten]),
    by decide +kernel, hm, fun h => absurd (C93_movement_unique _ _ _ _ hm h) (by decide)⟩

/-- Index scaled by eight and a pointer, both incremented by one. -/
def scales : List Line :=
  [str { base := some (x "0"), index := some { x "1" with shift := 3 } }, str { base := some (x "2") },
   addI (x "1") (x "1") 1, addI (x "2") (x "2") 1]

theorem scales_wf : ∀ l ∈ scales, WellFormed l := by
  simp only [scales, List.mem_cons, List.not_mem_nil, or_false, forall_eq_or_imp, forall_eq]
  exact ⟨wf_plain _ _, wf_plain _ _, wf_addI _ _ _, wf_addI _ _ _⟩

/-- C93 is false if references have different scales: increments are compared before they are scaled. -/
theorem C93_negation_scale : ∃ block m, (∀ l ∈ block, WellFormed l) ∧ Relevant block m ∧
    detect block = .ok (some 8) ∧ AddressMoves block m 1 ∧ ¬ AddressMoves block m 8 := by
  have hm : AddressMoves scales { base := some (x "2") } 1 :=
    base_moves _ _ _ (addI_moves scales scales_wf (x "2") 1 (by decide) (by simp [scales]))
  exact ⟨scales, _, scales_wf, stored_base _ (x "2") none (by unfold Modified; decide) (by simp [scales]),
    by decide +kernel, hm, fun h => absurd (C93_movement_unique _ _ _ _ hm h) (by decide)⟩

/-- Base and index move. -/
def twice : List Line :=
  [str { base := some (x "0"), index := some { x "1" with shift := 3 } }, addI (x "1") (x "1") 1, addI (x "0") (x "0") 8]

theorem twice_wf : ∀ l ∈ twice, WellFormed l := by
  simp only [twice, List.mem_cons, List.not_mem_nil, or_false, forall_eq_or_imp, forall_eq]
  exact ⟨wf_plain _ _, wf_addI _ _ _, wf_addI _ _ _⟩

/-- C93 is false if base and index both move: only the index counts. -/
theorem C93_negation_both : ∃ block m, (∀ l ∈ block, WellFormed l) ∧ Relevant block m ∧
    detect block = .ok (some 8) ∧ AddressMoves block m 16 ∧ ¬ AddressMoves block m 8 := by
  have hm : AddressMoves twice { base := some (x "0"), index := some { x "1" with shift := 3 } } 16 :=
    both_move _ _ _ 8 1 (addI_moves twice twice_wf (x "0") 8 (by decide) (by simp [twice]))
      (addI_moves twice twice_wf (x "1") 1 (by decide) (by simp [twice]))
  exact ⟨twice, _, twice_wf, stored_base _ (x "0") _ (by unfold Modified; decide) (by simp [twice]),
    by decide +kernel, hm, fun h => absurd (C93_movement_unique _ _ _ _ hm h) (by decide)⟩

/-- The index moves down. -/
def down : List Line :=
  [str { base := some (x "0"), index := some (x "1") }, subI (x "1") (x "1") 4, addI (x "0") (x "0") 8]

theorem down_wf : ∀ l ∈ down, WellFormed l := by
  simp only [down, List.mem_cons, List.not_mem_nil, or_false, forall_eq_or_imp, forall_eq]
  exact ⟨wf_plain _ _, wf_subI _ _ _, wf_addI _ _ _⟩

/-- C93 is false if the increment of an index is not detected: the base counts instead. -/
theorem C93_negation_index : ∃ block m, (∀ l ∈ block, WellFormed l) ∧ Relevant block m ∧
    detect block = .ok (some 8) ∧ AddressMoves block m 4 ∧ ¬ AddressMoves block m 8 := by
  have hm : AddressMoves down { base := some (x "0"), index := some (x "1") } 4 :=
    both_move _ _ _ 8 (-4) (addI_moves down down_wf (x "0") 8 (by decide) (by simp [down]))
      (subI_moves down down_wf (x "1") 4 (by decide) (by simp [down]))
  exact ⟨down, _, down_wf, stored_base _ (x "0") _ (by unfold Modified; decide) (by simp [down]),
    by decide +kernel, hm, fun h => absurd (C93_movement_unique _ _ _ _ hm h) (by decide)⟩

/-- A pointer which moves down. -/
def descending : List Line := [str { base := some (x "0") }, subI (x "0") (x "0") 8]

/-- The counterpart of `C93_found` for subtractions is false: nothing is found for `sub x0, x0, #8`. -/
theorem C93_negation_sub : ∃ block m, (∀ l ∈ block, WellFormed l) ∧ Relevant block m ∧
    detect block = .ok none ∧ AddressMoves block m (-8) := by
  have hw : ∀ l ∈ descending, WellFormed l := by
    simp only [descending, List.mem_cons, List.not_mem_nil, or_false, forall_eq_or_imp, forall_eq]
    exact ⟨wf_plain _ _, wf_subI _ _ _⟩
  exact ⟨descending, _, hw, stored_base _ (x "0") none (by unfold Modified; decide) (by simp [descending]),
    by decide +kernel, base_moves _ _ _ (subI_moves descending hw (x "0") 8 (by decide) (by simp [descending]))⟩

/-- C93 is false for updates of the base by a register (`str d0, [x0], x2`): one is reported whatever the register contains. -/
theorem C93_negation_update : ∃ block m, Relevant block m ∧ detect block = .ok (some 1) ∧ ¬ AddressMoves block m 1 := by
  refine ⟨[str { base := some (x "0"), post := .other }], { base := some (x "0"), post := .other }, ?_, by decide +kernel, ?_⟩
  · exact .inl ⟨_, List.mem_singleton.2 rfl, by simp [str], by simp [str], by simp, x "0", by simp, by unfold Modified; decide⟩
  · rintro ⟨w, h⟩
    have hl : Loop [str { base := some (x "0"), post := .other }] (w + 2) (fun _ _ _ => 0) := by
      refine ⟨?_, fun _ _ => rfl⟩
      intro k _ p hp
      have e : p = 0 := by simpa using hp
      subst e
      simp only [List.getElem_cons_zero]
      refine ⟨fun _ _ => rfl, ?_⟩
      intro m hm r v hv _
      simp only [str, mems, List.filterMap_cons, List.filterMap_nil, List.mem_singleton] at hm
      subst hm
      cases hv <;> simp_all
    have := h _ _ hl w (by omega) (by omega) 0 (by simp)
    simp [address, regVal] at this

end Verif.A64
