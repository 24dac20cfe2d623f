import Verif.Model.A64

/-!
Specification for C93: what a block of AArch64 instructions does to registers, and how registers and addresses move from one
iteration of a loop to the next. Registers hold integers without bound.
-/

namespace Verif.A64

/-- Register contents, by normalised name. -/
abbrev Regs := String → Int

/-- Prefixes of the general registers: all 64 bits, the lower 32 bits, and `sp` without prefix. -/
def General (r : Reg) : Prop := r.pre = "" ∨ r.pre = "x" ∨ r.pre = "w"

/-- Do two names stand for (parts of) the same register? -/
def Same (a b : Reg) : Prop := a.name = b.name ∧ (a.pre = b.pre ∨ General a ∧ General b)

/-- Is the operand a register with this name? -/
def Operand.named (k : Option String) : Operand → Bool
  | .reg x => decide (some (norm x) = k)
  | _ => false

/-- How often a line writes a register: as destination, or as base of an operand that is updated. -/
def lineCount (l : Line) (r : String) : Nat :=
  (l.dst.filter (Operand.named (some r))).length +
  ((mems l.operands).filter fun m => m.writesBack && decide (m.base.map norm = some r)).length

/-- How often a block writes a register. -/
def writeCount (block : List Line) (r : String) : Nat := (block.map (lineCount · r)).sum

/-- Is the register written in the block? -/
def Modified (block : List Line) (r : String) : Prop := 0 < writeCount block r

/-- Change of the base register by the operand. -/
inductive WritesBack : Mem → String → Int → Prop
  | pre (m : Mem) (b : Reg) (v : Int) (hp : m.pre = true) (hb : m.base = some b) (ho : m.offset = .imm v) :
      WritesBack m (norm b) v
  | post (m : Mem) (b : Reg) (v : Int) (hp : m.pre = false) (hb : m.base = some b) (ho : m.post = .imm v) :
      WritesBack m (norm b) v

/-- Instructions of which only the written registers are known, and the updates of base registers. -/
def Unknown (l : Line) (s s' : Regs) : Prop :=
  (∀ r, lineCount l r = 0 → s' r = s r) ∧
  ∀ m ∈ mems l.operands, ∀ r v, WritesBack m r v → lineCount l r = 1 → s' r = s r + v

/-- Register contents before and after one line. -/
def Exec (l : Line) (s s' : Regs) : Prop :=
  match l.mnemonic, l.operands with
  | none, _ => s' = s
  | some mn, [.reg d, .reg a, .imm v] =>
    if mn = "add" ∨ mn = "adds" then s' = Function.update s (norm d) (s (norm a) + v)
    else if mn = "sub" ∨ mn = "subs" then s' = Function.update s (norm d) (s (norm a) - v)
    else if mn = "lsl" ∧ 0 ≤ v then s' = Function.update s (norm d) (s (norm a) * 2 ^ v.toNat)
    else Unknown l s s'
  | some mn, [.reg d, .reg a, .reg b] =>
    if mn = "add" ∨ mn = "adds" then s' = Function.update s (norm d) (s (norm a) + s (norm b) * 2 ^ b.shift)
    else if mn = "sub" ∨ mn = "subs" then s' = Function.update s (norm d) (s (norm a) - s (norm b) * 2 ^ b.shift)
    else Unknown l s s'
  | some _, _ => Unknown l s s'

/-- `n` iterations of a loop: `st k p` are the contents in iteration `k` before line `p`. -/
structure Loop (block : List Line) (n : Nat) (st : Nat → Nat → Regs) : Prop where
  line : ∀ k < n, ∀ p (h : p < block.length), Exec block[p] (st k p) (st k (p + 1))
  again : ∀ k, k + 1 < n → st (k + 1) 0 = st k block.length

/-- After some iterations the register moves by `d` from each iteration to the next, at every position of the block. -/
def Moves (block : List Line) (r : String) (d : Int) : Prop :=
  ∃ warm, ∀ n st, Loop block n st → ∀ k, warm ≤ k → k + 1 < n → ∀ p ≤ block.length, st (k + 1) p r - st k p r = d

/-- Contents of an optional register. -/
def regVal (s : Regs) : Option Reg → Int
  | none => 0
  | some r => s (norm r) * 2 ^ r.shift

/-- Address of a reference, up to the constant offset. -/
def address (s : Regs) (m : Mem) : Int := (m.base.map fun b => s (norm b)).getD 0 + regVal s m.index

/-- After some iterations the address moves by `d` from each iteration to the next, at every position of the block. -/
def AddressMoves (block : List Line) (m : Mem) (d : Int) : Prop :=
  ∃ warm, ∀ n st, Loop block n st → ∀ k, warm ≤ k → k + 1 < n → ∀ p ≤ block.length,
    address (st (k + 1) p) m - address (st k p) m = d

/-- Instructions are described as in the manual: additions, subtractions and shifts have three operands and write the first
one, which is a register; updated operands have a base and a constant. -/
structure WellFormed (l : Line) : Prop where
  three : ∀ mn, l.mnemonic = some mn → mn ∈ ["add", "adds", "sub", "subs", "lsl"] →
    ∃ d a b, l.operands = [.reg d, a, b] ∧ 0 < lineCount l (norm d)
  update : ∀ m ∈ mems l.operands, m.writesBack = true → ∃ r v, WritesBack m r v
  silent : l.mnemonic = none → ∀ r, lineCount l r = 0

/-- Registers computed from others are written once; registers are not shifted in sums; what is subtracted changes. -/
structure Tidy (block : List Line) : Prop where
  shifts : ∀ l ∈ block, l.mnemonic = some "lsl" → ∀ d a v, l.operands = [.reg d, .reg a, .imm v] →
    writeCount block (norm d) = 1
  sums : ∀ l ∈ block, ∀ mn ∈ ["add", "adds", "sub", "subs"], l.mnemonic = some mn → ∀ d a b,
    l.operands = [.reg d, .reg a, .reg b] → writeCount block (norm d) = 1 ∧ b.shift = 0
  differences : ∀ l ∈ block, ∀ mn ∈ ["sub", "subs"], l.mnemonic = some mn → ∀ d a b,
    l.operands = [.reg d, .reg a, .reg b] → Modified block (norm b)

/-- The only write to the register is the addition of a constant. -/
def Counter (block : List Line) (r : String) (v : Int) : Prop :=
  ∃ l ∈ block, ∃ mn ∈ ["add", "adds"], ∃ a, l.mnemonic = some mn ∧ l.operands = [.reg a, .reg a, .imm v] ∧ norm a = r ∧
    writeCount block r = 1

/-- The reference is stored to, by an instruction of the block, at an address that is not a constant. -/
def Store (block : List Line) (m : Mem) : Prop :=
  ∃ l ∈ block, l.mnemonic ≠ none ∧ (.mem m ∈ l.dst ∨ .mem m ∈ l.srcDst) ∧ m.offset ≠ .ident ∧
    ∃ x, (m.base = some x ∨ m.index = some x) ∧ Modified block (norm x)

/-- The reference is loaded from. -/
def Load (block : List Line) (m : Mem) : Prop :=
  ∃ l ∈ block, l.mnemonic ≠ none ∧ (.mem m ∈ l.src ∨ .mem m ∈ l.srcDst)

/-- The references of interest: the stores if there are any, otherwise the loads. -/
def Relevant (block : List Line) (m : Mem) : Prop :=
  Store block m ∨ (¬ (∃ m', Store block m') ∧ Load block m)

end Verif.A64
