/-!
Model of `main` of the generator of machine descriptions (`kerncraft/machinemodel.py:868-918`): which files it opens, reads and writes. Texts are
any type of contents with an empty one; reading YAML, measuring and writing YAML are parameters. `argparse.FileType` opens files while arguments are
parsed, in the order of the command line: files for reading must exist, files for writing are emptied. For `-` it gives standard output, whose `name` is
`<stdout>`.
-/

namespace Verif.Generate

variable {C D : Type}

/-- Contents of files by their path. -/
abbrev Files (C : Type) := String → Option C

def put (fs : Files C) (p : String) (c : C) : Files C := fun q => if q = p then some c else fs q

/-- What the generator is given: `-m`, the output file, `--compare-host`, and which of `-m` and the output file comes first. -/
structure Args where
  machine : Option String
  output : String
  compare : Bool
  outputFirst : Bool

/-- What does not belong to `main`. `empty` is the content of an emptied file. -/
structure Env (C D : Type) where
  empty : C
  /-- `MachineModel(path)`: the description in a text, or an error -/
  parse : C → Except String D
  /-- `MachineModel()` without a path -/
  initial : D
  /-- the description after `update` (or up to an interruption) -/
  update : D → D
  /-- `dump` (lines 612-619): YAML for a description, or an error -/
  render : D → Except String C
  /-- `current_system` -/
  same : D → Bool

/-- Opening of the output file by `argparse` (line 891): its name and the files. -/
def openOutput (e : Env C D) (fs : Files C) (p : String) : String × Files C :=
  if p = "-" then ("<stdout>", fs) else (p, put fs p e.empty)

/-- Opening of `-m` by `argparse` (line 874): the file must exist; its name. -/
def openMachine (fs : Files C) : Option String → Except String (Option String)
  | none => .ok none
  | some p => if p = "-" then .ok (some "<stdin>") else if (fs p).isSome then .ok (some p) else .error "ArgumentError"

/-- `parser.parse_args()` (line 896): the files and the names of the machine file and of the output file. -/
def parseArgs (e : Env C D) (fs : Files C) (a : Args) : Files C × Except String (Option String × String) :=
  if a.outputFirst then
    let (name, fs') := openOutput e fs a.output
    (fs', (openMachine fs' a.machine).map fun m => (m, name))
  else
    match openMachine fs a.machine with
    | .error m => (fs, .error m)
    | .ok m => let (name, fs') := openOutput e fs a.output; (fs', .ok (m, name))

/-- Results: end with an exit code or an error, or the normal end. -/
inductive Outcome where
  | exit (code : Nat)
  | error (msg : String)
  | done
deriving DecidableEq

/-- `MachineModel(path)`. -/
def load (e : Env C D) (fs : Files C) (p : String) : Except String D :=
  match fs p with
  | some c => e.parse c
  | none => .error "FileNotFoundError"

/-- Lines 910-918 and `dump` (lines 612-627) to the path of `set_path`. -/
def finish (e : Env C D) (fs : Files C) (name : String) (d : D) : Files C × Outcome :=
  match e.render (e.update d) with
  | .error m => (fs, .error m)
  | .ok c => (put fs name c, .done)

/-- Lines 898-918. -/
def main (e : Env C D) (fs : Files C) (a : Args) : Files C × Outcome :=
  match parseArgs e fs a with
  | (fs', .error m) => (fs', .error m)
  | (fs', .ok (machine, name)) =>
    if a.compare then
      match machine with
      | none => (fs', .error "ArgumentError")
      | some p =>
        match load e fs' p with
        | .error m => (fs', .error m)
        | .ok d => (fs', .exit (if e.same d then 0 else 1))
    else
      match machine with
      | none => finish e fs' name e.initial
      | some p =>
        match load e fs' p with
        | .error m => (fs', .error m)
        | .ok d => finish e fs' name d

end Verif.Generate
