import Verif.Model.Asm

/-!
Model of `asm_instrumentation` (`kerncraft/incore_model.py:617-727`) with the questions to the user, and of the lines of
`KernelCode.incore_analysis` that read the pointer increment of marked assembly (`kerncraft/kernel.py:1713-1724`).

OSACA's functions on lines (parsing, loops, markers), the hash of a block and the detection of increments are parameters. The answers of
the user are a list of texts; reading past its end is an EOFError.
-/

namespace Verif.Marking

open Verif.Text

/-- What is known of the assembly: text of lines, their comparison, the loops by label (an ordered dict), the metric of blocks, the hash
of a block, the detection of the increment with the content of the cache file, and the markers for a comment. -/
structure Code (L M : Type) where
  lines : List L
  text : L → List Char
  eqv : L → L → Bool
  loops : List (List Char × List L)
  metric : List L → M
  hash : List L → List Char
  detect : List L → Option (List Char) → Except String (Option Int)
  marker : List Char → List L × List L

/-- `block_selection` -/
inductive Block where
  | auto
  | manual
  | index (n : Int)
  | other
deriving DecidableEq

/-- `pointer_increment` -/
inductive Incr where
  | given (n : Int)
  | auto
  | fallback
  | manual
  | other
deriving DecidableEq

/-- Lines 531-534 `userselect_block`: the questions; an empty answer is the default. Also the remaining answers. -/
def askBlock (labels : List (List Char)) (default : List Char) : List (List Char) → Except String (List Char × List (List Char))
  | [] => .error "EOFError"
  | a :: as =>
    let label := if a = [] then default else a
    if labels.contains label then .ok (label, as) else askBlock labels default as

/-- Lines 500-510 `userselect_increment`: the questions; an answer that is no number is the default. -/
def askIncr (default : Option Int) : List (List Char) → Except String (Int × List (List Char))
  | [] => .error "EOFError"
  | a :: as =>
    match parseInt (strip a) with
    | some n => .ok (n, as)
    | none =>
      match default with
      | some n => .ok (n, as)
      | none => askIncr default as

/-- Lines 511-512: what the user gave is stored, unless it is zero. -/
def stored (hash : List Char) (n : Int) (comment : List Char) (cache : Option (List Char)) : Option (List Char) :=
  if n = 0 then cache else Asm.storeIncrement hash n (some comment) cache

/-- Lines 651-665: the label of the block, and the remaining answers. -/
def selectBlock {L M : Type} [LT M] [DecidableLT M] (c : Code L M) (b : Block) (answers : List (List Char)) :
    Except String (List Char × List (List Char)) :=
  match b with
  | .auto =>
    match Asm.selectBest c.metric c.loops with
    | .ok l => .ok (l, answers)
    | .error e => .error e
  | .manual =>
    match Asm.selectBest c.metric c.loops with
    | .ok l => askBlock (c.loops.map (·.1)) l answers
    | .error e => .error e
  | .index _ => .error "KeyError"  -- the labels are texts, no number is among them (line 666)
  | .other => .error "ValueError"

/-- Lines 672-697: the increment, and the content of the cache file. -/
def selectIncr {L M : Type} (c : Code L M) (block : List L) (i : Incr) (comment : List Char) (answers : List (List Char))
    (cache : Option (List Char)) : Except String (Int × Option (List Char)) :=
  match i with
  | .given n => .ok (n, cache)
  | .auto =>
    match c.detect block cache with
    | .error e => .error e
    | .ok none => .error "RuntimeError"
    | .ok (some n) => .ok (n, cache)
  | .fallback =>
    match c.detect block cache with
    | .error e => .error e
    | .ok (some n) => .ok (n, cache)
    | .ok none =>
      match askIncr none answers with
      | .error e => .error e
      | .ok (n, _) => .ok (n, stored (c.hash block) n comment cache)
  | .manual =>
    match c.detect block cache with
    | .error e => .error e
    | .ok d =>
      match askIncr d answers with
      | .error e => .error e
      | .ok (n, _) => .ok (n, stored (c.hash block) n comment cache)
  | .other => .error "ValueError"

/-- The comment in the marker, lines 704-712. -/
def comment (n : Int) (hash : List Char) : List Char := "pointer_increment=".toList ++ showInt n ++ ' ' :: hash

/-- What is returned and written: block, increment, content of the cache file, text of the output file (lines 666-727). -/
structure Marked (L : Type) where
  block : List L
  increment : Int
  cache : Option (List Char)
  text : List Char

/-- Lines 640-727 `asm_instrumentation`; `input` is the text of `input_file` as an object, the comment in the cache. -/
def instrumentation {L M : Type} [LT M] [DecidableLT M] (c : Code L M) (b : Block) (i : Incr) (input : List Char)
    (answers : List (List Char)) (cache : Option (List Char)) : Except String (Marked L) :=
  match selectBlock c b answers with
  | .error e => .error e
  | .ok (label, answers) =>
    match c.loops.lookup label with
    | none => .error "KeyError"
    | some block =>
      match block.head?, block.getLast? with
      | some first, some last =>
        match c.lines.findIdx? (c.eqv first), c.lines.findIdx? (c.eqv last) with
        | some _, some _ =>
          match selectIncr c block i input answers cache with
          | .error e => .error e
          | .ok (n, cache) =>
            let m := c.marker (comment n (c.hash block))
            match Asm.instrument c.eqv c.lines block m.1 m.2 with
            | .error e => .error e
            | .ok ls => .ok ⟨block, n, cache, ls.flatMap fun l => c.text l ++ ['\n']⟩
        | _, _ => .error "ValueError"
      | _, _ => .error "IndexError"

/-- The text of the file that is input and output (lines 643-646, 677-678 and 724-725): it is emptied at the beginning, removed if the
increment is not detected (`none`) and written in the end. -/
def inPlace {L M : Type} [LT M] [DecidableLT M] (c : Code L M) (b : Block) (i : Incr) (input : List Char)
    (answers : List (List Char)) (cache : Option (List Char)) : Option (List Char) :=
  match instrumentation c b i input answers cache with
  | .ok m => some m.text
  | .error e => if e = "RuntimeError" ∧ i = .auto then none else some []

/-- `re.search(r'pointer_increment=([0-9]+)', s)` (`kernel.py:1716`): the digits of the first match. -/
def searchIncr : List Char → Option (List Char)
  | [] => none
  | ch :: cs =>
    match ("pointer_increment=".toList.isPrefixOf (ch :: cs)), ((ch :: cs).drop "pointer_increment=".length).takeWhile isDigit with
    | true, d :: ds => some (d :: ds)
    | _, _ => searchIncr cs

/-- `kernel.py:1713-1724`: the increment of marked assembly that is used again; `none` is the removal of the file and `sys.exit(1)`. -/
def reread (marked : List Char) : Option Int :=
  match searchIncr marked with
  | some ds => parseInt ds
  | none => none

end Verif.Marking
