import Verif.Model.Asm
import Mathlib.Logic.Function.Basic

/-!
Model of `AArch64.get_pointer_increment` (`kerncraft/incore_model.py:297-490`), up to the look-up in the increment cache.
Parsing of assembly and the sets of source and destination operands are OSACA's and not modelled; they are given with each
line. Dictionaries are functions, since their order is never used.
-/

namespace Verif.A64

/-- OSACA `RegisterOperand`, with the amount of a shift to the left. -/
structure Reg where
  pre : String
  name : String
  shift : Nat := 0
deriving DecidableEq

/-- Lines 287-294 `normalize_to_register_str`; `prefix in "wx"` is a search for a substring. -/
def norm (r : Reg) : String := (if r.pre ∈ ["", "w", "x", "wx"] then "x" else r.pre) ++ r.name

/-- Key of dictionaries; an absent register gives `None`. -/
abbrev Key := Option String

/-- Offset of a memory operand. -/
inductive Offset where
  | none
  | imm (v : Int)
  | ident
deriving DecidableEq

/-- `post_indexed`: `False`, a dictionary with the value, or anything else (a register). -/
inductive Post where
  | no
  | imm (v : Int)
  | other
deriving DecidableEq

/-- OSACA `MemoryOperand`. -/
structure Mem where
  base : Option Reg
  index : Option Reg := none
  offset : Offset := .none
  pre : Bool := false
  post : Post := .no
deriving DecidableEq

/-- OSACA operands; immediates are integers. -/
inductive Operand where
  | reg (r : Reg)
  | imm (v : Int)
  | mem (m : Mem)
  | other
deriving DecidableEq

/-- OSACA `InstructionForm` with its semantic operands. -/
structure Line where
  mnemonic : Option String
  operands : List Operand
  src : List Operand := []
  dst : List Operand := []
  srcDst : List Operand := []
deriving DecidableEq

/-- Memory operands of a list. -/
def mems (ops : List Operand) : List Mem := ops.filterMap fun | .mem m => some m | _ => none

/-- `modified[k] += 1` -/
def bump (mods : Key → Option Int) (k : Key) : Key → Option Int := Function.update mods k (some ((mods k).getD 0 + 1))

/-- Line 315: does the operand change its base register? -/
def Mem.writesBack (m : Mem) : Bool := decide (m.post ≠ .no) || m.pre

/-- Lines 317-321: the change of the base register. -/
def Mem.amount (m : Mem) : Except String Int :=
  if m.pre then match m.offset with
    | .imm v => .ok v
    | _ => .error "AttributeError"
  else match m.post with
    | .imm v => .ok v
    | _ => .ok 1

/-- `modified_registers` and `increments`. -/
structure St where
  mods : Key → Option Int
  incs : Key → Option Int

/-- Lines 305-311. -/
def countDst (mods : Key → Option Int) (o : Operand) : Key → Option Int :=
  match o with
  | .reg r => bump mods (some (norm r))
  | _ => mods

/-- Lines 312-322. -/
def countMem (st : St) (m : Mem) : Except String St :=
  if m.writesBack then do
    let v ← m.amount
    .ok ⟨bump st.mods (m.base.map norm), Function.update st.incs (m.base.map norm) (some v)⟩
  else .ok st

/-- Lines 330-349: stores of a line. -/
def stores (mods : Key → Option Int) (l : Line) : List Mem :=
  (mems (l.dst ++ l.srcDst)).filter fun m =>
    ((mods (m.base.map norm)).isSome || (mods (m.index.map norm)).isSome) && decide (m.offset ≠ .ident)

/-- Lines 350-364: references so far, and whether only stores count. -/
def stepRefs (mods : Key → Option Int) (acc : List Mem × Bool) (l : Line) : List Mem × Bool :=
  if l.mnemonic = none then acc else
  let st := stores mods l
  let acc := if st ≠ [] ∧ acc.2 = false then ([], true) else acc
  let refs := acc.1 ++ st
  (if acc.2 then refs else refs ++ mems (l.src ++ l.srcDst), acc.2)

/-- Lines 366-384: addition and subtraction of a constant. -/
def stepImm (incs : Key → Option Int) (l : Line) : Except String (Key → Option Int) :=
  match l.mnemonic with
  | none => .ok incs
  | some mn =>
    let act (f : String → Int → Key → Option Int) : Except String (Key → Option Int) :=
      match l.operands with
      | a :: b :: rest =>
        if a = b then match rest with
          | .imm v :: _ => match a with
            | .reg r => .ok (f (norm r) v)
            | _ => .error "AttributeError"
          | [] => .error "IndexError"
          | _ => .ok incs
        else .ok incs
      | _ => .error "IndexError"
    if mn ∈ ["add", "adds"] then act fun r v => Function.update incs (some r) (some v)
    else if mn ∈ ["sub", "subs"] then
      act fun r v => if incs (some r) = some (-v) then Function.update incs (some r) (some (-v)) else incs
    else .ok incs

/-- Lines 386-391 and 434-439: keeps the increments of registers that are modified once. The look-up adds missing keys to
the default dictionary. -/
def once (st : St) : St :=
  ⟨fun k => if (st.incs k).isSome then some ((st.mods k).getD 0) else st.mods k,
   fun k => if (st.mods k).getD 0 = 1 then st.incs k else none⟩

/-- `increments[dst] = increments[src] * 2 ** v` -/
def shiftTo (incs : Key → Option Int) (d : Int) (dst : Operand) (v : Int) : Except String (Key → Option Int) :=
  match dst with
  | .reg r => if v < 0 then .error "fraction" else .ok (Function.update incs (some (norm r)) (some (d * 2 ^ v.toNat)))
  | _ => .error "AttributeError"

/-- Lines 393-405: `lsl`. -/
def stepLsl (incs : Key → Option Int) (l : Line) : Except String (Key → Option Int) :=
  if l.mnemonic = some "lsl" then
    match l.operands with
    | a :: b :: .imm v :: _ => match b with
      | .reg rb => match incs (some (norm rb)) with
        | some d => shiftTo incs d a v
        | none => .ok incs
      | _ => .error "AttributeError"
    | _ :: _ :: _ :: _ => .ok incs
    | _ => .error "IndexError"
  else .ok incs

/-- Lines 424-432, for one order of the sources; the last component is `new_increments`. -/
def attempt (factor : Int) (dest : Operand) (ri rj : Reg) (st : St × List String) : Except String (St × List String) :=
  match st.1.incs (some (norm ri)), st.1.mods (some (norm rj)) with
  | some d, none => match dest with
    | .reg r =>
      let mods := if st.1.incs (some (norm r)) = some (factor * d)
        then Function.update st.1.mods (some (norm r)) (some ((st.1.mods (some (norm r))).getD 0 - 1)) else st.1.mods
      .ok (⟨mods, Function.update st.1.incs (some (norm r)) (some (factor * d))⟩, st.2 ++ [norm r])
    | _ => .error "AttributeError"
  | _, _ => .ok st

/-- Lines 407-432: sums and differences of registers. -/
def stepSum (st : St × List String) (l : Line) : Except String (St × List String) :=
  match l.mnemonic with
  | none => .ok st
  | some mn =>
    let act (factor : Int) : Except String (St × List String) :=
      match l.operands with
      | dest :: .reg a :: .reg b :: _ => do attempt factor dest b a (← attempt factor dest a b st)
      | _ :: .reg _ :: [] => .error "IndexError"
      | _ :: _ :: _ => .ok st
      | _ => .error "IndexError"
    if mn ∈ ["add", "adds"] then act 1 else if mn ∈ ["sub", "subs"] then act (-1) else .ok st

/-- Lines 441-455: `lsl` of the registers found in the third pass. -/
def stepLast (new : List String) (incs : Key → Option Int) (l : Line) : Except String (Key → Option Int) :=
  if l.mnemonic = some "lsl" then
    match l.operands with
    | a :: .reg rb :: .imm v :: _ => match incs (some (norm rb)) with
      | some d => if norm rb ∈ new then shiftTo incs d a v else .ok incs
      | none => .ok incs
    | _ :: _ :: _ :: _ => .ok incs
    | _ => .error "IndexError"
  else .ok incs

/-- Lines 299-384: modified registers, first increments, references. -/
def first (block : List Line) : Except String (St × List Mem) := do
  let mods := (block.flatMap (·.dst)).foldl countDst fun _ => none
  let st ← (mems (block.flatMap (·.operands))).foldlM countMem ⟨mods, fun _ => none⟩
  let refs := block.foldl (stepRefs st.mods) ([], false)
  let incs ← block.foldlM stepImm st.incs
  .ok (⟨st.mods, incs⟩, refs.1)

/-- Lines 386-455: the final increments, for given results of the first pass. -/
def derive (block : List Line) (st : St) : Except String St := do
  let st := once st
  let incs ← block.foldlM stepLsl st.incs
  let (st, new) ← block.foldlM stepSum (⟨st.mods, incs⟩, [])
  let st := once st
  let incs ← block.foldlM (stepLast new) st.incs
  .ok ⟨st.mods, incs⟩

/-- Lines 461-474: register that moves the address, and its scale. -/
def addressReg (incs : Key → Option Int) (m : Mem) : Key × Int :=
  match m.index with
  | some i => if (incs (some (norm i))).isSome then (some (norm i), 2 ^ i.shift) else (m.base.map norm, 1)
  | none => (m.base.map norm, 1)

/-- Lines 457-484. A scale of one leaves an older entry of `scales` as it is. -/
def deduce (st : St) (refs : List Mem) : Option Int :=
  let regs := refs.map (addressReg st.incs)
  let scales : Key → Int := regs.foldl (fun s x => if x.2 = 1 then s else Function.update s x.1 x.2) fun _ => 1
  let addr := (regs.map (·.1)).filter fun k => (st.mods k).isSome
  match addr with
  | [] => none
  | a :: rest =>
    if (a :: rest).all (fun k => (st.incs k).isSome) ∧ Asm.itemsEqual ((a :: rest).map fun k => (st.incs k).getD 0)
    then some ((st.incs a).getD 0 * scales a) else none

/-- Lines 297-484: the detected increment; `none` leads to the increment cache. -/
def detect (block : List Line) : Except String (Option Int) := do
  let (st, refs) ← first block
  let st ← derive block st
  .ok (deduce st refs)

end Verif.A64
