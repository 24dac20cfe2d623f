import Verif.Model.Text
import Mathlib.Data.List.Dedup

/-!
Model of `kerncraft/incore_model.py`: block selection, metrics, marker insertion, increment cache and the detection of
pointer increments in x86 code. Parsing of assembly and the sets of source and destination operands are OSACA's and not
modelled; they are given with each line.
-/

namespace Verif.Asm

/-! ### Parsed assembly -/

/-- Displacement of a memory operand: absent, a symbol at some address, or a number. -/
inductive Offset where
  | none
  | sym (addr : Int)
  | imm (v : Int)
deriving DecidableEq

/-- OSACA `MemoryOperand`. -/
structure Mem where
  offset : Offset
  base : Option String
  index : Option String
  scale : Int
deriving DecidableEq

/-- OSACA operands. The value of an immediate is `none` if it is symbolic. `prefix` is only set on AArch64. -/
inductive Operand where
  | reg (pre : Option String) (name : String)
  | imm (value : Option Int)
  | mem (m : Mem)
  | ident (name : String)
deriving DecidableEq

/-- OSACA `InstructionForm`, with the operands that are read and written. -/
structure Line where
  mnemonic : Option String
  operands : List Operand
  dst : List Operand
  src : List Operand
deriving DecidableEq

/-! ### Choice of the block -/

/-- Lines 62-82 `select_best_block`; `metric` is the method of the class. Blocks are the items of an ordered dict. -/
def selectBest {L B M : Type} [LT M] [DecidableLT M] (metric : B → M) : List (L × B) → Except String L
  | [] => .error "ValueError"
  | (l, b) :: rest =>
    .ok (rest.foldl (fun (best : L × M) lb => if best.2 < metric lb.2 then (lb.1, metric lb.2) else best) (l, metric b)).1

/-- Does the string start with the first one? -/
def startsWith (p s : String) : Bool := p.toList.isPrefixOf s.toList

/-- The part `(movu|mul|add|sub|div|fmadd(132|213|231)?)` of line 113. -/
def packedRoots : List (List Char) :=
  ["movu", "mul", "add", "sub", "div", "fmadd132", "fmadd213", "fmadd231", "fmadd"].map String.toList

/-- Lines 112-114: `re.match(r"^[v]?(movu|…)[h]?p[ds]", mnemonic)`. -/
def isPacked (m : String) : Bool :=
  let tails := packedRoots.flatMap fun r => [r ++ "pd".toList, r ++ "ps".toList, r ++ "hpd".toList, r ++ "hps".toList]
  tails.any fun t => t.isPrefixOf m.toList || ('v' :: t).isPrefixOf m.toList

/-- Names of registers with the given beginning among the operands of a block (line 105-109). -/
def regsOf (pre : String) (block : List Line) : List String :=
  block.flatMap fun l =>
    if l.mnemonic.isSome then
      l.operands.filterMap fun o => match o with
        | .reg _ n => if startsWith pre n then some n else none
        | _ => none
    else []

/-- Number of instructions that satisfy a condition on the mnemonic. -/
def countInstr (p : String → Bool) (block : List Line) : Nat :=
  block.countP fun l => match l.mnemonic with | none => false | some m => p m

/-- Lines 91-127 `x86.compute_block_metric`. -/
def metricX86 (block : List Line) : List Nat :=
  [countInstr isPacked block, countInstr (fun m => isPacked m && startsWith "v" m) block,
   (regsOf "zmm" block).dedup.length, (regsOf "ymm" block).dedup.length, (regsOf "xmm" block).dedup.length,
   countInstr (fun _ => true) block]

/-- Line 277: `op.prefix is not None and op.prefix in "zv"`; the substring test accepts '', 'z', 'v' and 'zv'. -/
def isVectorOp : Operand → Bool
  | .reg (some p) _ => p = "" || p = "z" || p = "v" || p = "zv"
  | _ => false

/-- Lines 258-285 `AArch64.compute_block_metric`. -/
def metricA64 (block : List Line) : List Nat :=
  [(block.map fun l => if l.mnemonic.isSome then l.operands.countP isVectorOp else 0).sum,
   countInstr (fun m => ["fmul", "fdiv", "fadd", "fsub"].contains m) block,
   countInstr (fun m => ["add", "sub", "mul"].contains m) block,
   countInstr (fun _ => true) block]

/-! ### Marker insertion -/

/-- Lines 666-722: the marked lines. `eqv` is the comparison of OSACA's instruction forms. -/
def instrument {α : Type} (eqv : α → α → Bool) (lines block start stop : List α) : Except String (List α) :=
  match block.head?, block.getLast? with
  | some first, some last =>
    match lines.findIdx? (eqv first), lines.findIdx? (eqv last) with
    | some i, some j =>
      let blockEnd := j + 1
      .ok (lines.take i ++ start ++ (lines.take blockEnd).drop i ++ stop ++ lines.drop blockEnd)
    | _, _ => .error "ValueError"
  | _, _ => .error "IndexError"

/-! ### Cache of increments -/

/-- Lines 555-566: search in the lines of the cache file; a value that is no number counts as found. -/
def findInLines (hash : List Char) : List (List Char) → Option Int
  | [] => none
  | l :: ls =>
    match Text.words l with
    | h :: v :: _ => if h = hash then Text.parseInt v else findInLines hash ls
    | _ => findInLines hash ls

/-- Lines 548-566 `find_increment_in_cache`; `none` as content is a missing file. -/
def findIncrement (hash : List Char) (content : Option (List Char)) : Option Int :=
  match content with
  | none => none
  | some s => findInLines hash (Text.splitNl s)

/-- Lines 574-578: the text that is appended. -/
def cacheLine (hash : List Char) (inc : Int) (comment : Option (List Char)) : List Char :=
  let line := hash ++ ' ' :: Text.showInt inc
  (match comment with
    | none => line
    | some c => if c = [] then line else line ++ ' ' :: '#' :: c) ++ ['\n']

/-- Lines 569-578 `store_increment_to_cache`. -/
def storeIncrement (hash : List Char) (inc : Int) (comment : Option (List Char)) (content : Option (List Char)) :
    Option (List Char) :=
  some (content.getD [] ++ cacheLine hash inc comment)

/-! ### Pointer increments on x86 -/

/-- `re.match(r"^root[bwlq]?$", mnemonic)` -/
def isMn (root m : String) : Bool :=
  m = root || m = root ++ "b" || m = root ++ "w" || m = root ++ "l" || m = root ++ "q"

/-- Variables of lines 132-136. The dict is an association list, latest assignment first. -/
structure St where
  incs : List (String × Int)
  modified : List String
  storesOnly : Bool
  refs : List Mem
deriving DecidableEq

/-- `modified_registers.append(reg)` and `increments[reg] = d` -/
def St.change (st : St) (reg : String) (d : Int) : St :=
  { st with incs := (reg, d) :: st.incs, modified := st.modified ++ [reg] }

/-- `operand.name` -/
def nameOf : Operand → Except String String
  | .reg _ n => .ok n
  | .ident n => .ok n
  | _ => .error "AttributeError"

/-- Memory operands of a list of operands. -/
def memsOf (ops : List Operand) : List Mem :=
  ops.filterMap fun o => match o with | .mem m => some m | _ => none

/-- Lines 142-158: references to memory. -/
def stepRefs (st : St) (l : Line) : St :=
  let dst := (memsOf l.dst).filter fun m => m.base ≠ some "rip"
  let st := if dst ≠ [] then
      { st with storesOnly := true, refs := (if st.storesOnly then st.refs else []) ++ dst }
    else st
  if st.storesOnly then st else { st with refs := st.refs ++ memsOf l.src }

/-- Lines 163-170 and 175-182: `add` and `sub` of an immediate; `f` is the sign. -/
def stepAddSub (st : St) (f : Int → Int) (ops : List Operand) : Except String St :=
  match ops with
  | [] => .error "IndexError"
  | .imm v :: rest =>
    match rest with
    | [] => .error "IndexError"
    | .reg _ r :: _ =>
      match v with
      | none => .error "TypeError"
      | some v => .ok (st.change r (f v))
    | _ => .ok st
  | _ => .ok st

/-- Lines 183-201: `lea`. -/
def stepLea (st : St) (ops : List Operand) : Except String St :=
  match ops with
  | [] => .error "IndexError"
  | .mem m :: rest =>
    match m.base, m.index with
    | none, none => .ok st
    | some _, some _ =>
      -- line 187 reads the name of the second operand
      match rest with
      | [] => .error "IndexError"
      | o :: _ => match nameOf o with
        | .error e => .error e
        | .ok _ => .ok st
    | some b, none =>
      match rest with
      | [] => .error "IndexError"
      | o :: _ => match nameOf o with
        | .error e => .error e
        | .ok r => if b = r then
            match m.offset with
            | .imm v => .ok (st.change r v)
            | _ => .error "AttributeError"
          else .ok st
    | none, some i =>
      match rest with
      | [] => .error "IndexError"
      | o :: _ => match nameOf o with
        | .error e => .error e
        | .ok r => if i = r then
            match m.offset with
            | .imm v => .ok (st.change r v)
            | _ => .error "AttributeError"
          else .ok st
  | _ => .error "AttributeError"

/-- Lines 138-201: one line of the block. -/
def step (st : St) (l : Line) : Except String St :=
  match l.mnemonic with
  | none => .ok st
  | some m =>
    let st := stepRefs st l
    if isMn "inc" m then
      match l.operands with
      | [] => .error "IndexError"
      | o :: _ => match nameOf o with
        | .error e => .error e
        | .ok r => .ok (st.change r 1)
    else if isMn "add" m then stepAddSub st id l.operands
    else if isMn "dec" m then
      match l.operands with
      | [] => .error "IndexError"
      | o :: _ => match nameOf o with
        | .error e => .error e
        | .ok r => .ok (st.change r (-1))
    else if isMn "sub" m then stepAddSub st (fun v => -v) l.operands
    else if isMn "lea" m then stepLea st l.operands
    else .ok st

/-- Lines 137-201: the loop over the block. -/
def scan (st : St) : List Line → Except String St
  | [] => .ok st
  | l :: ls => match step st l with
    | .error e => .error e
    | .ok st' => scan st' ls

/-- Initial values, lines 132-136. -/
def St.init : St := ⟨[], [], false, []⟩

/-- Does the reference use the register? -/
def Mem.uses (m : Mem) (r : String) : Bool := decide (m.base = some r) || decide (m.index = some r)

/-- `lst[1:] == lst[:-1]`, lines 28-29. -/
def itemsEqual (l : List Int) : Bool := decide (l.tail = l.dropLast)

/-- Lines 216-227: registers not used by a reference with two registers are dropped. -/
def exclude (refs : List Mem) (cands : List String) : List String :=
  refs.foldl (fun c m => if m.base.isSome ∧ m.index.isSome then c.filter m.uses else c) cands

/-- The enumerations of the set of lines 208-215: Python's set order is arbitrary. -/
def IsEnum (st : St) (cands : List String) : Prop :=
  cands.Nodup ∧ ∀ r, r ∈ cands ↔ (r ∈ st.incs.map Prod.fst ∧ ∃ m ∈ st.refs, m.uses r = true)

/-- Lines 229-238: the index register. -/
def pick (incs : List (String × Int)) : List String → Option String
  | [] => none
  | [r] => some r
  | r :: rs => if itemsEqual ((r :: rs).map fun x => (incs.lookup x).getD 0) then some r else none

/-- Lines 203-250: the deduced increment, for one enumeration of the candidates. -/
def deduce (st : St) (cands : List String) : Except String (Option Int) :=
  if st.refs = [] then .ok none
  else match pick st.incs (exclude st.refs cands) with
    | none => .ok none
    | some r =>
      if st.modified.count r = 1 then
        let scales := (st.refs.filter fun m => m.uses r).map Mem.scale
        if itemsEqual scales then
          match scales with
          | [] => .error "IndexError"
          | k :: _ => .ok (some (k * (st.incs.lookup r).getD 0))
        else .ok none
      else .ok none

/-- Lines 130-250 of `x86.get_pointer_increment`, without the cache. -/
def Detects (block : List Line) (res : Except String (Option Int)) : Prop :=
  match scan St.init block with
  | .error e => res = .error e
  | .ok st => ∃ cands, IsEnum st cands ∧ res = deduce st cands

end Verif.Asm
