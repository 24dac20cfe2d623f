/-!
Model of the interpretation of options: `kerncraft/kerncraft.py:60-65, 149-244`, `kerncraft/models/ecm.py:268-290`, `kerncraft/machinemodel.py:537-543` and
`kerncraft/kernel.py:1698-1699`. Python's `int` is modelled for ASCII texts, without its limit on the
number of digits.
-/

namespace Verif.Options

/-! ### Python's `int` of a text -/

def isSpace (c : Char) : Bool := c = ' ' || c = '\t' || c = '\n' || c = '\r' || c = '\x0b' || c = '\x0c'

def strip (s : List Char) : List Char := ((s.dropWhile isSpace).reverse.dropWhile isSpace).reverse

/-- Digits, single underscores between them; `n` is the number so far. -/
def digits (n : Nat) : List Char → Option Nat
  | [] => some n
  | '_' :: c :: cs => if c.isDigit then digits (10 * n + (c.toNat - '0'.toNat)) cs else none
  | c :: cs => if c.isDigit then digits (10 * n + (c.toNat - '0'.toNat)) cs else none

def natOf : List Char → Option Nat
  | [] => none
  | c :: cs => if c.isDigit then digits (c.toNat - '0'.toNat) cs else none

/-- `int(s)`; `none` is a ValueError. -/
def pyInt (s : String) : Option Int :=
  match strip s.toList with
  | '-' :: cs => (natOf cs).map fun (n : Nat) => -(n : Int)
  | '+' :: cs => (natOf cs).map fun (n : Nat) => (n : Int)
  | cs => (natOf cs).map fun (n : Nat) => (n : Int)

/-! ### Options -/

/-- A text or a number. -/
inductive Val where
  | text (s : String)
  | num (n : Int)
deriving DecidableEq

/-- `kerncraft.py:60-65` `int_or_str`, the type of `--pointer-increment`. -/
def intOrStr (s : String) : Val :=
  match pyInt s with
  | some n => .num n
  | none => .text s

/-- `kerncraft.py:223-227`: the block; `parser.error` ends the program. -/
def asmBlock (s : String) : Except String Val :=
  if s = "auto" ∨ s = "manual" then .ok (.text s)
  else match pyInt s with
    | some n => .ok (.num n)
    | none => .error "SystemExit"

/-- `ecm.py:283-289`: the pointer increment of the ECM model. `int` of a number is the number. -/
def pointerIncrement (v : Val) : Except String Val :=
  if v = .text "auto" ∨ v = .text "auto_with_manual_fallback" ∨ v = .text "manual" then .ok v
  else match v with
    | .num n => .ok (.num n)
    | .text s => match pyInt s with
      | some n => .ok (.num n)
      | none => .error "SystemExit"

/-- `kerncraft.py:230-234`: the unit of all models; a given unit is one of four texts, none of them empty (lines 179-180). -/
def unit (given : Option String) (pmodels : List String) : String :=
  match given with
  | some u => u
  | none => if "RooflineFLOP" ∈ pmodels ∨ "RooflineASM" ∈ pmodels ∨ "RooflineIACA" ∈ pmodels then "FLOP/s" else "cy/CL"

/-- `kerncraft.py:208-209`: the default of `--incore-model`. -/
def incoreOption (given : Option String) : Option String := some (given.getD "OSACA")

/-- `machinemodel.py:537-543` `get_incore_model`; without an entry `next` raises StopIteration. -/
def getIncoreModel (models : List (String × String)) : Option String → Except String String
  | some m => .ok m
  | none => match models with
    | [] => .error "StopIteration"
    | (m, _) :: _ => .ok m

/-- `kernel.py:1698-1699`: the model and its parameter. -/
def incoreModel (models : List (String × String)) (given : Option String) : Except String (String × String) :=
  match getIncoreModel models (incoreOption given) with
  | .error e => .error e
  | .ok m => match models.lookup m with
    | some p => .ok (m, p)
    | none => .error "KeyError"

end Verif.Options
