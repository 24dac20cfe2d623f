import Verif.Model.Required
import Verif.Model.Options
import Verif.Model.Constants

/-!
What `cachetile` does before and for its search (`cachetile.py:14-43`, `57-75`; `models/ecm.py:68-77`). The search is in `Tile`.
-/

namespace Verif.TileRun

open Verif.Symbols Verif.Required Verif.Options

/-- The attributes of the arguments (14-29). -/
def parserOptions : List String := ["machine", "define", "min_block_length", "verbose", "cores", "description_file"]

/-- `ECMData.__init__` with arguments (`ecm.py:68-77`): the attributes it reads. The predictor is any of the known ones. -/
def ecmInit (options : List String) : Except String Unit :=
  if "verbose" ∉ options ∨ "cores" ∉ options ∨ "cache_predictor" ∉ options then .error "AttributeError" else .ok ()

/-- Lines 58-61 -/
def defineDict : List (String × String) → List (String × Int) → Except String (List (String × Int))
  | [], dict => .ok dict
  | (name, value) :: rest, dict =>
    if (dict.lookup name).isSome then .error "AssertionError: Redefinition of constants is not allowed."
    else match pyInt value with
      | none => .error "ValueError"
      | some v => defineDict rest (dict ++ [(name, v)])

/-- Lines 66-72: the sizes of `None` are a TypeError. Sets of symbols are lists without duplicates; all symbols of descriptions are positive integers. -/
def undefined (dict : List (String × Int)) : List (String × Option (List Expr)) → List String → Except String (List String)
  | [], acc => .ok acc
  | (_, none) :: _, _ => .error "TypeError"
  | (_, some dims) :: rest, acc =>
    undefined dict rest (acc ++ ((dims.flatMap free).filter fun s => (dict.lookup s).isNone && !acc.contains s).dedup)

/-- Lines 73-75 -/
def choose (dict : List (String × Int)) (vars : List (String × Option (List Expr))) : Except String String :=
  match undefined dict vars [] with
  | .error e => .error e
  | .ok [s] => .ok s
  | .ok _ => .error "AssertionError: There are multiple or none undefined constants."

/-- Lines 57-75: the defined constants and the one to be varied. -/
def prepare (options : List String) (vars : List (String × Option (List Expr))) (defines : List (String × String)) :
    Except String (List (String × Int) × String) :=
  match defineDict defines [] with
  | .error e => .error e
  | .ok dict => match ecmInit options with
    | .error e => .error e
    | .ok () => match choose dict vars with
      | .error e => .error e
      | .ok s => .ok (dict, s)

/-- Lines 34-40: what `simulate` does with the constants. -/
def simulateCalls (dict : List (String × Int)) (blocking : String) (length : Int) : List Constants.Call :=
  .clear :: dict.map (fun d => .set (.str d.1) (.int d.2)) ++ [.set (.symbol (Constants.posInt blocking)) (.int length)]

end Verif.TileRun
