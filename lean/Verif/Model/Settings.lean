import Verif.Model.CoreRuns
import Verif.Model.Options

/-!
The settings with which the models are created: `ECMData.__init__` (`models/ecm.py:50-81`), `ECMCPU.__init__` (249-289),
`ECM.__init__` (416-441), `RooflineFLOP.__init__` (`models/roofline.py:25-57`) and `RooflineASM.__init__` (245-280). The
parser is given whenever arguments are; `parser.error` ends the program.
-/

namespace Verif.Settings

open Verif.Options Verif.CoreRuns

/-- `args`: what the constructors read from the command line. -/
structure Args where
  verbose : Nat
  cores : Nat
  cachePredictor : String
  asmBlock : Val
  pointerIncrement : Val

/-- The keyword arguments of the constructors. -/
structure Kw where
  verbose : Nat
  cores : Nat
  cachePredictor : Kind
  asmBlock : Val
  pointerIncrement : Val

/-- Settings of the prediction of traffic: cores, predictor and verbosity. -/
structure Data where
  cores : Nat
  predictor : Kind
  verbose : Nat
deriving DecidableEq

/-- Settings of the in-core analysis: block, pointer increment and verbosity. -/
structure Core where
  asmBlock : Val
  pointerIncrement : Val
  verbose : Nat
deriving DecidableEq

/-- `ecm.py:68-81` and `roofline.py:42-57` -/
def data (args : Option Args) (kw : Kw) : Except String Data :=
  match args with
  | some a =>
    if a.cachePredictor = "SIM" then .ok ⟨a.cores, .sim, a.verbose⟩
    else if a.cachePredictor = "LC" then .ok ⟨a.cores, .lc, a.verbose⟩
    else .error "NotImplementedError"
  | none => .ok ⟨kw.cores, kw.cachePredictor, kw.verbose⟩

/-- `int(v)`; `none` is a ValueError. -/
def intOf : Val → Option Int
  | .num n => some n
  | .text s => pyInt s

/-- `ecm.py:279-282` and the like: a setting that is none of the words is converted, as found in `args`. -/
def validate (words : List String) (own : Val) (inArgs : Option Val) : Except String Val :=
  if own ∈ words.map Val.text then .ok own
  else match inArgs with
    | none => .error "AttributeError"
    | some v => match intOf v with
      | some n => .ok (.num n)
      | none => .error "SystemExit"

/-- `ecm.py:278-289` and `roofline.py:269-280` -/
def validated (args : Option Args) (block incr : Val) : Except String (Val × Val) :=
  match validate ["auto", "manual"] block (args.map (·.asmBlock)) with
  | .error e => .error e
  | .ok b => match validate ["auto", "auto_with_manual_fallback", "manual"] incr (args.map (·.pointerIncrement)) with
    | .error e => .error e
    | .ok i => .ok (b, i)

/-- `ECMCPU.__init__` -/
def ecmCPU (args : Option Args) (kw : Kw) : Except String Core :=
  let own : Core := match args with
    | some a => ⟨a.asmBlock, a.pointerIncrement, a.verbose⟩
    | none => ⟨kw.asmBlock, kw.pointerIncrement, kw.verbose⟩
  match validated args own.asmBlock own.pointerIncrement with
  | .error e => .error e
  | .ok (b, i) => .ok ⟨b, i, own.verbose⟩

/-- `ECMData.__init__` -/
def ecmData (args : Option Args) (kw : Kw) : Except String Data := data args kw

/-- `ECM.__init__`: the predictor given is not passed on (line 441). -/
def ecm (args : Option Args) (kw : Kw) : Except String (Core × Data) :=
  match ecmCPU args kw with
  | .error e => .error e
  | .ok c => match ecmData args { kw with cachePredictor := .sim } with
    | .error e => .error e
    | .ok d => .ok (c, d)

/-- `RooflineFLOP.__init__` -/
def rooflineFLOP (args : Option Args) (kw : Kw) : Except String Data := data args kw

/-- `RooflineASM.__init__` -/
def rooflineASM (args : Option Args) (kw : Kw) : Except String (Core × Data) :=
  match rooflineFLOP args kw with
  | .error e => .error e
  | .ok d =>
    let own : Val × Val := match args with
      | some a => (a.asmBlock, a.pointerIncrement)
      | none => (kw.asmBlock, kw.pointerIncrement)
    match validated args own.1 own.2 with
    | .error e => .error e
    | .ok (b, i) => .ok (⟨b, i, d.verbose⟩, d)

end Verif.Settings
