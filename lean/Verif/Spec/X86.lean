import Verif.Model.Asm

/-!
Specification for C56: what a block of x86 instructions does to address registers. Registers hold integers without
bound; overlapping names (`eax`, `rax`) are different registers.
-/

namespace Verif.Spec

open Verif.Asm

/-- Register contents. -/
abbrev Regs := String → Int

/-- Value of an optional register. -/
def regVal (s : Regs) : Option String → Int
  | none => 0
  | some r => s r

/-- Effective address of a memory operand. -/
def address (s : Regs) (m : Mem) : Int :=
  (match m.offset with | .none => 0 | .sym a => a | .imm v => v) + regVal s m.base + regVal s m.index * m.scale

/-- Mnemonic with an optional size suffix. -/
def hasRoot (root m : String) : Prop := m = root ∨ ∃ c ∈ ["b", "w", "l", "q"], m = root ++ c

/-- Register contents after one line, with `other` for the instructions that are not described here. -/
inductive Exec (other : Line → Regs → Regs → Prop) : Line → Regs → Regs → Prop
  /-- comments, labels and directives -/
  | noInstr (l : Line) (s : Regs) (h : l.mnemonic = none) : Exec other l s s
  /-- `inc r` -/
  | inc (l : Line) (s : Regs) (m : String) (p : Option String) (r : String) (h : l.mnemonic = some m)
      (hm : hasRoot "inc" m) (ho : l.operands = [.reg p r]) : Exec other l s (Function.update s r (s r + 1))
  /-- `dec r` -/
  | dec (l : Line) (s : Regs) (m : String) (p : Option String) (r : String) (h : l.mnemonic = some m)
      (hm : hasRoot "dec" m) (ho : l.operands = [.reg p r]) : Exec other l s (Function.update s r (s r - 1))
  /-- `add $v, r` -/
  | add (l : Line) (s : Regs) (m : String) (p : Option String) (r : String) (v : Int) (h : l.mnemonic = some m)
      (hm : hasRoot "add" m) (ho : l.operands = [.imm (some v), .reg p r]) :
      Exec other l s (Function.update s r (s r + v))
  /-- `sub $v, r` -/
  | sub (l : Line) (s : Regs) (m : String) (p : Option String) (r : String) (v : Int) (h : l.mnemonic = some m)
      (hm : hasRoot "sub" m) (ho : l.operands = [.imm (some v), .reg p r]) :
      Exec other l s (Function.update s r (s r - v))
  /-- `lea mem, r` -/
  | lea (l : Line) (s : Regs) (m : String) (p : Option String) (r : String) (mem : Mem) (h : l.mnemonic = some m)
      (hm : hasRoot "lea" m) (ho : l.operands = [.mem mem, .reg p r]) :
      Exec other l s (Function.update s r (address s mem))
  /-- anything else: other mnemonics, memory destinations of `inc` and `dec`, `add` and `sub` of something that is no
  number, or to something that is no register -/
  | other (l : Line) (s s' : Regs) (m : String) (h : l.mnemonic = some m)
      (hinc : hasRoot "inc" m ∨ hasRoot "dec" m → ∀ p r, l.operands ≠ [.reg p r])
      (hadd : hasRoot "add" m ∨ hasRoot "sub" m → ∀ v p r, l.operands ≠ [.imm (some v), .reg p r])
      (hlea : hasRoot "lea" m → ∀ mem p r, l.operands ≠ [.mem mem, .reg p r])
      (ho : other l s s') : Exec other l s s'

/-- Execution of a block, line after line. -/
inductive Run (other : Line → Regs → Regs → Prop) : List Line → Regs → Regs → Prop
  | nil (s : Regs) : Run other [] s s
  | cons (l : Line) (ls : List Line) (s s' s'' : Regs) (h : Exec other l s s') (hs : Run other ls s' s'') :
      Run other (l :: ls) s s''

/-- Memory operands of instructions of the block that are written and not addressed by the instruction pointer. -/
def Store (block : List Line) (m : Mem) : Prop :=
  ∃ l ∈ block, l.mnemonic ≠ none ∧ Operand.mem m ∈ l.dst ∧ m.base ≠ some "rip"

/-- Memory operands that are read. -/
def Load (block : List Line) (m : Mem) : Prop :=
  ∃ l ∈ block, l.mnemonic ≠ none ∧ Operand.mem m ∈ l.src

/-- The references of interest: the stores if there are any, otherwise the loads. -/
def Relevant (block : List Line) (m : Mem) : Prop :=
  Store block m ∨ (¬ (∃ m', Store block m') ∧ Load block m)

/-- The register is part of the address. -/
def UsesReg (m : Mem) (r : String) : Prop := m.base = some r ∨ m.index = some r

/-- The instruction has the form of an addition of the constant `d` to register `r`: `inc`, `dec`, `add`, `sub`, or `lea`
of an address that consists of `d` and `r` (with any scale, if `r` is the index). -/
inductive Adds (r : String) : Line → Int → Prop
  | inc (l : Line) (m : String) (p : Option String) (h : l.mnemonic = some m) (hm : hasRoot "inc" m)
      (ho : l.operands = [.reg p r]) : Adds r l 1
  | dec (l : Line) (m : String) (p : Option String) (h : l.mnemonic = some m) (hm : hasRoot "dec" m)
      (ho : l.operands = [.reg p r]) : Adds r l (-1)
  | add (l : Line) (m : String) (p : Option String) (v : Int) (h : l.mnemonic = some m) (hm : hasRoot "add" m)
      (ho : l.operands = [.imm (some v), .reg p r]) : Adds r l v
  | sub (l : Line) (m : String) (p : Option String) (v : Int) (h : l.mnemonic = some m) (hm : hasRoot "sub" m)
      (ho : l.operands = [.imm (some v), .reg p r]) : Adds r l (-v)
  | leaBase (l : Line) (m : String) (p : Option String) (v k : Int) (h : l.mnemonic = some m) (hm : hasRoot "lea" m)
      (ho : l.operands = [.mem ⟨.imm v, some r, none, k⟩, .reg p r]) : Adds r l v
  | leaIndex (l : Line) (m : String) (p : Option String) (v k : Int) (h : l.mnemonic = some m) (hm : hasRoot "lea" m)
      (ho : l.operands = [.mem ⟨.imm v, none, some r, k⟩, .reg p r]) : Adds r l v

end Verif.Spec
