import Verif.Model.Regex
import Verif.Model.Analyzer

/-!
Model of the arguments of the stand-alone benchmark (`kerncraft/standalone_pheno.py`): `AppendStringRange` (23-87), `AppendLoopRange`
(90-150), `AppendRepetitionDefines` (153-197), `AppendFlops` (200-244). The dictionaries exist from the beginning (defaults in 273-310), so
the branches for a missing attribute are left out. Dictionaries are lists of pairs in the order of insertion.
-/

namespace Verif.Pheno

open Verif.Text Verif.Units Verif.Regex

/-- `(?:(?P<region>(\D\w*,)*\D\w*):)?` (lines 44, 106, 171, 217) -/
def regionRe : Pat (Option (List Char)) := fun s =>
  group (bind (cat (many (cat (chr fun c => !isDigit c) (cat (star isWord) (chr (· == ',')))) s.length)
    (cat (chr fun c => !isDigit c) (star isWord))) fun t => bind (chr (· == ':')) fun _ => ret t) s

/-- Lines 55, 121, 179 and 221-224: the names of regions. -/
def regions (r : Option (List Char)) : List (List Char) :=
  match r with
  | some t => Analyzer.splitOn ',' t
  | none => [[]]

/-! ### Loops -/

/-- `\d+\.?\d*` -/
def boundRe : Pat (List Char) := cat (plus isDigit) (cat (opt (chr (· == '.'))) (star isDigit))

/-- Parts of a loop: regions, start, step, end and variable. -/
structure LoopMatch where
  region : Option (List Char)
  start : List Char
  step : Option (List Char)
  stop : List Char
  var : Option (List Char)

/-- Lines 106-116 -/
def loopRe : Pat LoopMatch :=
  bind regionRe fun r => bind boundRe fun a => bind (chr (· == ':')) fun _ =>
    bind (group (bind boundRe fun x => bind (chr (· == ':')) fun _ => ret x)) fun b => bind boundRe fun c =>
      bind (group (bind (chr (· == ':')) fun _ => cat (chr fun c => !isDigit c) (star fun c => !isSpace c))) fun v => ret ⟨r, a, b, c, v⟩

/-- What is stored for a loop: the dictionary, or the argument itself. -/
inductive Stored where
  | loop (start stop step : Int) (var : Option (List Char))
  | text (s : List Char)
deriving DecidableEq

/-- Lines 117-137: regions and loop. After a ValueError the variable still has the text. -/
def parseLoop (s : List Char) : Except String (List (List Char) × Stored) :=
  match first loopRe s with
  | none => .error "ArgumentError"
  | some m =>
    .ok (regions m.region,
      match parseInt m.start, parseInt m.stop, parseInt (m.step.getD ['1']) with
      | some a, some c, some b => .loop a c b m.var
      | _, _, _ => .text s)

/-- `d[k] = f(d[k])`, or `d[k] = v` for a new key. -/
def upsert {α : Type} (k : List Char) (v : α) (f : α → α) : List (List Char × α) → List (List Char × α)
  | [] => [(k, v)]
  | (k', x) :: d => if k' = k then (k', f x) :: d else (k', x) :: upsert k v f d

/-- Lines 139-147 -/
def addLoop (d : List (List Char × List Stored)) (s : List Char) : Except String (List (List Char × List Stored)) :=
  match parseLoop s with
  | .error e => .error e
  | .ok (rs, v) => .ok (rs.foldl (fun d r => upsert r [v] (· ++ [v]) d) d)

/-! ### Definitions -/

/-- `[0-9]*\.?[0-9]+(?:[eE][-+]?[0-9]+)?` -/
def floatRe : Pat (List Char) :=
  cat (star isDigit) (cat (opt (chr (· == '.'))) (cat (plus isDigit)
    (opt (cat (chr fun c => c == 'e' || c == 'E') (cat (opt (chr fun c => c == '-' || c == '+')) (plus isDigit))))))

/-- The value of an exponent, if there is one. -/
def exponentOf : List Char → Int
  | _ :: '-' :: ds => -(natOf ds : Int)
  | _ :: '+' :: ds => natOf ds
  | _ :: ds => natOf ds
  | [] => 0

/-- `float` of such a text. -/
def floatOf (s : List Char) : ℚ :=
  let a := s.takeWhile isDigit
  match s.dropWhile isDigit with
  | '.' :: r =>
    (natOf a + natOf (r.takeWhile isDigit) / 10 ^ (r.takeWhile isDigit).length) * 10 ^ exponentOf (r.dropWhile isDigit)
  | r => natOf a * 10 ^ exponentOf r

/-- Parts of a definition: regions, start, stop and scale. -/
structure DefMatch where
  region : Option (List Char)
  start : Option (List Char)
  stop : Option (List Char)
  scale : Option (List Char)

/-- Lines 44-47 -/
def defRe : Pat DefMatch :=
  bind regionRe fun r => bind (group floatRe) fun a => bind (opt (chr (· == ':'))) fun _ =>
    bind (group (bind (group floatRe) fun b => bind (opt (chr (· == ':'))) fun _ => ret b)) fun b =>
      bind (group (group (alt (lit "log".toList) (lit "lin".toList)))) fun v => ret ⟨r, a, b.join, v.join⟩

/-- The dictionary of a variable; `adjustable` is set together with `stop`. -/
structure Variable where
  regions : List (List Char)
  start : ℚ
  stop : Option ℚ
  scale : Option (List Char)
deriving DecidableEq

/-- Lines 49-75: `none` is the empty dictionary. -/
def parseDef (s : List Char) : Except String (Option Variable) :=
  match first defRe s with
  | none => .error "ArgumentError"
  | some m => match m.start with
    | none => .ok none
    | some a => match m.stop with
      | none => .ok (some ⟨regions m.region, floatOf a, none, none⟩)
      | some b => .ok (some ⟨regions m.region, floatOf a, some (floatOf b),
          some (m.scale.getD (if floatOf a < floatOf b then "lin".toList else "log".toList))⟩)

/-- Line 84: the variable gets its dictionary. The empty KEY of `nargs=2` is not excluded. -/
def addDef (d : List (List Char × Option Variable)) (key s : List Char) : Except String (List (List Char × Option Variable)) :=
  match parseDef s with
  | .error e => .error e
  | .ok v => .ok (upsert key v (fun _ => v) d)

/-! ### Repetitions and operations -/

/-- Lines 171-175 -/
def repRe : Pat (Option (List Char) × List Char) :=
  bind regionRe fun r => bind (plus isWord) fun q => bind eos fun _ => ret (r, q)

/-- Lines 165-192 -/
def addRep (d : List (List Char × List Char)) (s : List Char) : Except String (List (List Char × List Char)) :=
  if s = [] then .error "ArgumentError"
  else match first repRe s with
    | none => .error "ArgumentError"
    | some (r, q) => .ok ((regions r).foldl (fun d x => upsert x q (fun _ => q) d) d)

/-- Lines 217-218 -/
def flopsRe : Pat (Option (List Char) × List Char) :=
  bind regionRe fun r => bind (plus isDigit) fun q => bind eos fun _ => ret (r, q)

/-- Lines 236-240: the loop over the regions. -/
def addFlopsAll (n : Nat) : List (List Char) → List (List Char × Nat) → Except String (List (List Char × Nat))
  | [], d => .ok d
  | r :: rs, d => if r ∈ d.map (·.1) then .error "Exception" else addFlopsAll n rs (d ++ [(r, n)])

/-- Lines 211-240 -/
def addFlops (d : List (List Char × Nat)) (s : List Char) : Except String (List (List Char × Nat)) :=
  if s = [] then .error "ArgumentError"
  else match first flopsRe s with
    | none => .error "ArgumentError"
    | some (r, q) => addFlopsAll (natOf q) (regions r) d

end Verif.Pheno
