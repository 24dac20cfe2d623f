import Verif.Model.Asm
import Verif.Props.Asm
import Mathlib.Data.Set.Card
import Mathlib.Data.Finset.Dedup
import Mathlib.Tactic.Convert

/-!
C82: the most vectorised block is selected.
-/

namespace Verif.Asm

/-! ### Specification -/

/-- Names of packed operations that the selection knows. -/
def knownOperations : List String :=
  ["movu", "mul", "add", "sub", "div", "fmadd", "fmadd132", "fmadd213", "fmadd231"]

/-- A mnemonic that begins with `v` (optional), a known operation, `h` (optional) and `pd` or `ps`. -/
def KnownPacked (m : String) : Prop :=
  ∃ v ∈ ["", "v"], ∃ o ∈ knownOperations, ∃ h ∈ ["", "h"], ∃ t ∈ ["pd", "ps"], ∃ rest : List Char,
    m.toList = v.toList ++ o.toList ++ h.toList ++ t.toList ++ rest

open Classical in
/-- Number of instructions with a property. -/
noncomputable def number (P : String → Prop) (block : List Line) : Nat :=
  ((block.filterMap Line.mnemonic).filter (fun m => decide (P m))).length

/-- Number of different registers with the given beginning among the operands of instructions. -/
noncomputable def registers (pre : String) (block : List Line) : Nat :=
  Set.ncard {n : String | ∃ l ∈ block, l.mnemonic ≠ none ∧ ∃ p, Operand.reg p n ∈ l.operands ∧
    ∃ t, n.toList = pre.toList ++ t}

/-- Ranking of x86 blocks: packed, packed AVX, registers of 512, 256 and 128 bits, instructions. -/
noncomputable def rankX86 (b : List Line) : List Nat :=
  [number KnownPacked b, number (fun m => KnownPacked m ∧ ∃ t, m.toList = 'v' :: t) b,
    registers "zmm" b, registers "ymm" b, registers "xmm" b, number (fun _ => True) b]

/-- Number of operands of instructions that are vector registers. -/
def vectorOperands (block : List Line) : Nat :=
  ((block.filter fun l => l.mnemonic ≠ none).flatMap fun l =>
    l.operands.filter fun o => match o with | .reg (some p) _ => p ∈ ["z", "v"] | _ => false).length

/-- Ranking of AArch64 blocks: vector operands, floating-point and integer arithmetic, instructions. -/
noncomputable def rankA64 (b : List Line) : List Nat :=
  [vectorOperands b, number (· ∈ ["fadd", "fsub", "fmul", "fdiv"]) b, number (· ∈ ["add", "sub", "mul"]) b,
    number (fun _ => True) b]

/-- `a` is ranked above `b`: at the first difference `a` has more. -/
def Above (a b : List Nat) : Prop :=
  ∃ (k x y : Nat), a[k]? = some x ∧ b[k]? = some y ∧ y < x ∧ ∀ i < k, a[i]? = b[i]?

/-! ### Agreement with the metrics -/

theorem above_iff (a b : List Nat) (h : a.length = b.length) : Above a b ↔ b < a := by
  induction a generalizing b with
  | nil =>
    have : b = [] := List.length_eq_zero_iff.1 h.symm
    subst this
    simp [Above]
  | cons x a ih =>
    cases b with
    | nil => simp at h
    | cons y b =>
      have h' : a.length = b.length := by simpa using h
      rw [List.cons_lt_cons_iff, ← ih b h']
      constructor
      · rintro ⟨k, u, w, h1, h2, h3, h4⟩
        cases k with
        | zero =>
          simp only [List.getElem?_cons_zero, Option.some.injEq] at h1 h2
          subst h1; subst h2
          left; exact h3
        | succ k =>
          right
          have h0 := h4 0 (by omega)
          simp only [List.getElem?_cons_zero, Option.some.injEq] at h0
          refine ⟨h0.symm, k, u, w, by simpa using h1, by simpa using h2, h3, ?_⟩
          intro i hi
          simpa using h4 (i + 1) (by omega)
      · rintro (hlt | ⟨heq, k, u, w, h1, h2, h3, h4⟩)
        · exact ⟨0, x, y, rfl, rfl, hlt, by simp⟩
        · refine ⟨k + 1, u, w, by simpa using h1, by simpa using h2, h3, ?_⟩
          intro i hi
          cases i with
          | zero => simp [heq]
          | succ i => simpa using h4 i (by omega)

theorem number_eq (P : String → Prop) (p : String → Bool) (hp : ∀ m, p m = true ↔ P m) (block : List Line) :
    countInstr p block = number P block := by
  classical
  unfold countInstr number
  rw [← List.countP_eq_length_filter, List.countP_filterMap]
  apply List.countP_congr
  intro l _
  cases hm : l.mnemonic with
  | none => simp
  | some m => simp [hp m]

theorem startsWith_iff (p s : String) : startsWith p s = true ↔ ∃ t, s.toList = p.toList ++ t := by
  unfold startsWith
  rw [List.isPrefixOf_iff_prefix]
  constructor
  · rintro ⟨t, h⟩; exact ⟨t, h.symm⟩
  · rintro ⟨t, h⟩; exact ⟨t, h.symm⟩

theorem mem_roots (r : List Char) : r ∈ packedRoots ↔ ∃ o ∈ knownOperations, o.toList = r := by
  unfold packedRoots knownOperations
  rw [List.mem_map]
  simp only [List.mem_cons, List.not_mem_nil, or_false]
  constructor <;> rintro ⟨o, h, rfl⟩ <;> refine ⟨o, ?_, rfl⟩ <;> tauto

theorem isPacked_iff (m : String) : isPacked m = true ↔ KnownPacked m := by
  unfold isPacked KnownPacked
  simp only [List.any_eq_true, List.mem_flatMap, Bool.or_eq_true, List.isPrefixOf_iff_prefix]
  constructor
  · rintro ⟨t, ⟨r, hr, ht⟩, hm⟩
    obtain ⟨o, ho, rfl⟩ := (mem_roots r).1 hr
    have hform : ∃ h ∈ ["", "h"], ∃ p ∈ ["pd", "ps"], t = o.toList ++ h.toList ++ p.toList := by
      simp only [List.mem_cons, List.not_mem_nil, or_false] at ht
      rcases ht with rfl | rfl | rfl | rfl
      · exact ⟨"", by simp, "pd", by simp, by simp⟩
      · exact ⟨"", by simp, "ps", by simp, by simp⟩
      · exact ⟨"h", by simp, "pd", by simp, by simp⟩
      · exact ⟨"h", by simp, "ps", by simp, by simp⟩
    obtain ⟨h, hh, p, hp, rfl⟩ := hform
    rcases hm with ⟨rest, hrest⟩ | ⟨rest, hrest⟩
    · exact ⟨"", by simp, o, ho, h, hh, p, hp, rest, by simp [← hrest]⟩
    · exact ⟨"v", by simp, o, ho, h, hh, p, hp, rest, by simp [← hrest]⟩
  · rintro ⟨v, hv, o, ho, h, hh, t, ht, rest, hm⟩
    refine ⟨o.toList ++ h.toList ++ t.toList, ⟨o.toList, (mem_roots _).2 ⟨o, ho, rfl⟩, ?_⟩, ?_⟩
    · simp only [List.mem_cons, List.not_mem_nil, or_false] at hh ht
      rcases hh with rfl | rfl <;> rcases ht with rfl | rfl <;> simp
    · simp only [List.mem_cons, List.not_mem_nil, or_false] at hv
      rcases hv with rfl | rfl
      · left; exact ⟨rest, by simp [hm]⟩
      · right; exact ⟨rest, by simp [hm]⟩

theorem mem_regsOf (pre : String) (block : List Line) (n : String) :
    n ∈ regsOf pre block ↔ ∃ l ∈ block, l.mnemonic ≠ none ∧ ∃ p, Operand.reg p n ∈ l.operands ∧
      ∃ t, n.toList = pre.toList ++ t := by
  unfold regsOf
  rw [List.mem_flatMap]
  constructor
  · rintro ⟨l, hl, hn⟩
    split at hn
    · rename_i hm
      refine ⟨l, hl, by rintro h; rw [h] at hm; simp at hm, ?_⟩
      obtain ⟨o, ho, hon⟩ := List.mem_filterMap.1 hn
      cases o with
      | reg p n' =>
        simp only at hon
        split at hon
        · rename_i hs
          simp only [Option.some.injEq] at hon
          subst hon
          exact ⟨p, ho, (startsWith_iff _ _).1 hs⟩
        · cases hon
      | imm v => simp at hon
      | mem v => simp at hon
      | ident v => simp at hon
    · simp at hn
  · rintro ⟨l, hl, hm, p, hp, ht⟩
    refine ⟨l, hl, ?_⟩
    have : l.mnemonic.isSome = true := by
      cases h : l.mnemonic with
      | none => exact absurd h hm
      | some m => rfl
    rw [if_pos this]
    apply List.mem_filterMap.2
    exact ⟨_, hp, by simp [(startsWith_iff _ _).2 ht]⟩

theorem registers_eq (pre : String) (block : List Line) : (regsOf pre block).dedup.length = registers pre block := by
  unfold registers
  have : {n : String | ∃ l ∈ block, l.mnemonic ≠ none ∧ ∃ p, Operand.reg p n ∈ l.operands ∧
      ∃ t, n.toList = pre.toList ++ t} = ((regsOf pre block).toFinset : Set String) := by
    ext n
    simp only [Set.mem_ofPred_eq, List.coe_toFinset]
    exact (mem_regsOf pre block n).symm
  rw [this, Set.ncard_coe_finset, List.card_toFinset]

theorem metricX86_eq (b : List Line) : metricX86 b = rankX86 b := by
  unfold metricX86 rankX86
  rw [registers_eq, registers_eq, registers_eq, number_eq KnownPacked isPacked isPacked_iff,
    number_eq (fun _ => True) (fun _ => true) (by simp),
    number_eq (fun m => KnownPacked m ∧ ∃ t, m.toList = 'v' :: t) (fun m => isPacked m && startsWith "v" m)]
  intro m
  rw [Bool.and_eq_true, isPacked_iff, startsWith_iff]
  simp

/-- All prefixes of registers are single letters, as OSACA's AArch64 parser sets them. -/
def LetterPrefixes (b : List Line) : Prop := ∀ l ∈ b, ∀ p n, Operand.reg (some p) n ∈ l.operands → p.toList.length = 1

theorem vector_eq (b : List Line) (h : LetterPrefixes b) :
    (b.map fun l => if l.mnemonic.isSome then l.operands.countP isVectorOp else 0).sum = vectorOperands b := by
  unfold vectorOperands
  induction b with
  | nil => rfl
  | cons l b ih =>
    have ih' := ih (fun l' hl' => h l' (by simp [hl']))
    simp only [List.map_cons, List.sum_cons, ih', List.filter_cons]
    cases hm : l.mnemonic with
    | none => simp
    | some m =>
      simp only [Option.isSome_some, if_true, ne_eq, reduceCtorEq, not_false_eq_true, decide_true, List.flatMap_cons,
        List.length_append, Nat.add_right_cancel_iff]
      rw [← List.countP_eq_length_filter]
      apply List.countP_congr
      intro o ho
      cases o with
      | reg p n =>
        cases p with
        | none => simp [isVectorOp]
        | some p =>
          have hp := h l (by simp) p n ho
          have h1 : p ≠ "" := by rintro rfl; simp at hp
          have h2 : p ≠ "zv" := by rintro rfl; simp at hp
          simp [isVectorOp, h1, h2]
      | imm v => simp [isVectorOp]
      | mem v => simp [isVectorOp]
      | ident v => simp [isVectorOp]

theorem metricA64_eq (b : List Line) (h : LetterPrefixes b) : metricA64 b = rankA64 b := by
  unfold metricA64 rankA64
  rw [vector_eq b h, number_eq (· ∈ ["fadd", "fsub", "fmul", "fdiv"]) (fun m => ["fmul", "fdiv", "fadd", "fsub"].contains m),
    number_eq (· ∈ ["add", "sub", "mul"]) (fun m => ["add", "sub", "mul"].contains m),
    number_eq (fun _ => True) (fun _ => true) (by simp)]
  · intro m; simp
  · intro m; simp; tauto

/-- C82 for the known packed instructions: no block is ranked above the selected one, and it is ranked above every
earlier block. Missing: packed instructions with other names (`C82_negation`). -/
theorem C82_x86_partial {L : Type} (blocks : List (L × List Line)) (label : L)
    (h : selectBest metricX86 blocks = .ok label) :
    ∃ pre b post, blocks = pre ++ (label, b) :: post ∧ (∀ x ∈ pre, Above (rankX86 b) (rankX86 x.2)) ∧
      ∀ x ∈ post, ¬ Above (rankX86 x.2) (rankX86 b) := by
  obtain ⟨pre, b, post, h1, h2, h3⟩ := C37_first_best metricX86 blocks label (by convert h; exact rfl)
  refine ⟨pre, b, post, h1, ?_, ?_⟩
  · intro x hx
    rw [above_iff _ _ (by rfl), ← metricX86_eq, ← metricX86_eq]
    exact h2 x hx
  · intro x hx
    rw [above_iff _ _ (by rfl), ← metricX86_eq, ← metricX86_eq]
    exact not_lt.2 (h3 x hx)

/-- C82 for AArch64. Missing: arithmetic instructions with other names (`C82_negation_aarch64`). -/
theorem C82_aarch64_partial {L : Type} (blocks : List (L × List Line)) (label : L)
    (hp : ∀ x ∈ blocks, LetterPrefixes x.2) (h : selectBest metricA64 blocks = .ok label) :
    ∃ pre b post, blocks = pre ++ (label, b) :: post ∧ (∀ x ∈ pre, Above (rankA64 b) (rankA64 x.2)) ∧
      ∀ x ∈ post, ¬ Above (rankA64 x.2) (rankA64 b) := by
  obtain ⟨pre, b, post, h1, h2, h3⟩ := C37_first_best metricA64 blocks label (by convert h; exact rfl)
  have hb := hp (label, b) (by simp [h1])
  refine ⟨pre, b, post, h1, ?_, ?_⟩
  · intro x hx
    rw [above_iff _ _ (by rfl), ← metricA64_eq _ (hp x (by simp [h1, hx])), ← metricA64_eq _ hb]
    exact h2 x hx
  · intro x hx
    rw [above_iff _ _ (by rfl), ← metricA64_eq _ (hp x (by simp [h1, hx])), ← metricA64_eq _ hb]
    exact not_lt.2 (h3 x hx)

/-- Packed floating-point operations of SSE and AVX (without conversions, shuffles and logical operations). -/
def packedOperations : List String :=
  ["movu", "mova", "movnt", "add", "sub", "mul", "div", "sqrt", "max", "min", "hadd", "hsub", "addsub",
    "fmadd132", "fmadd213", "fmadd231", "fmsub132", "fmsub213", "fmsub231", "fnmadd132", "fnmadd213", "fnmadd231",
    "fnmsub132", "fnmsub213", "fnmsub231"]

/-- Specification: a packed floating-point instruction. -/
def PackedInstruction (m : String) : Prop :=
  ∃ v ∈ ["", "v"], ∃ o ∈ packedOperations, ∃ t ∈ ["pd", "ps"], m = v ++ o ++ t

/-- C82 is false for packed instructions with other names: the block with two scalar instructions is selected instead of
the one with a packed square root and a packed multiply-subtract. -/
theorem C82_negation : ∃ scalar vector : List Line,
    (∀ l ∈ scalar, ∀ m, l.mnemonic = some m → ¬ PackedInstruction m) ∧
    (∀ l ∈ vector, ∃ m, l.mnemonic = some m ∧ PackedInstruction m) ∧ vector ≠ [] ∧
    selectBest metricX86 [("scalar", scalar), ("vector", vector)] = .ok "scalar" := by
  refine ⟨List.replicate 3 ⟨some "vaddsd", [.imm none], [], []⟩, [⟨some "vsqrtpd", [], [], []⟩, ⟨some "vfmsub231pd", [], [], []⟩],
    ?_, ?_, by simp, by decide +kernel⟩
  · intro l hl m hm
    rw [List.eq_of_mem_replicate hl] at hm
    simp only [Option.some.injEq] at hm
    subst hm
    unfold PackedInstruction
    decide
  · intro l hl
    simp only [List.mem_cons, List.not_mem_nil, or_false] at hl
    rcases hl with rfl | rfl
    · exact ⟨_, rfl, "v", by decide, "sqrt", by decide, "pd", by decide, by decide⟩
    · exact ⟨_, rfl, "v", by decide, "fmsub231", by decide, "pd", by decide, by decide⟩

/-- C82 is false on AArch64 for fused multiply-add: a block with one `fadd` is selected instead of one with two `fmadd`
on the same kind of registers. -/
theorem C82_negation_aarch64 :
    selectBest metricA64 [("two", [⟨some "fmadd", [.reg (some "d") "0"], [], []⟩, ⟨some "fmadd", [.reg (some "d") "1"], [], []⟩]),
      ("one", [⟨some "fadd", [.reg (some "d") "0"], [], []⟩])] = .ok "one" := by
  decide +kernel

example : ∃ label, selectBest metricX86 [("a", [scalarAdd]), ("b", [packedAdd, scalarAdd])] = .ok label :=
  ⟨"b", by decide +kernel⟩

example : selectBest metricA64 [("a", [⟨some "fadd", [.reg (some "d") "0"], [], []⟩]),
      ("b", [⟨some "fadd", [.reg (some "v") "0"], [], []⟩])] = .ok "b" ∧
    LetterPrefixes [⟨some "fadd", [.reg (some "v") "0"], [], []⟩] := by
  refine ⟨by decide +kernel, ?_⟩
  intro l hl p n hm
  simp only [List.mem_cons, List.not_mem_nil, or_false] at hl
  subst hl
  simp only [List.mem_cons, Operand.reg.injEq, Option.some.injEq, List.not_mem_nil, or_false] at hm
  rw [hm.1]; decide

end Verif.Asm
