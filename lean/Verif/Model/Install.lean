import Mathlib.Data.List.Basic

/-!
Installation of IACA (`iaca_get.py`). The two locations of `search_path` are directories that exist or not. What is downloaded, permissions and the contents of
`iaca.sh` are not modelled: a version is extracted in one step, and any step may fail (no network, changed archives, full disks).
-/

namespace Verif.Install

/-- The values of `os_map`, `iaca_get.py:43` -/
inductive Os where
  | lin64
  | mac
deriving DecidableEq, Repr

/-- `sys.argv[2] in ['lin64', 'mac']`, `iaca_get.py:98` -/
def Os.ofArg : String → Option Os
  | "lin64" => some .lin64
  | "mac" => some .mac
  | _ => none

/-- Contents of an existing location: the directories of versions with the system that the binaries in them are for, and the links in `bin/` with the version
they point to. -/
structure Dir where
  versions : List (String × Os)
  links : List (String × String)
deriving DecidableEq, Repr

/-- A location: its directory, if it exists, and whether it may be created. -/
structure Loc where
  dir : Option Dir
  allowed : Bool
deriving DecidableEq, Repr

/-- `iaca_get.py:50-57` `search_path`: first in the home directory, then in the package. -/
structure Disk where
  home : Loc
  package : Loc
deriving DecidableEq, Repr

/-- Which of the two. -/
inductive Place where
  | home
  | package
deriving DecidableEq, Repr

/-- The location at a place. -/
def Disk.at (d : Disk) : Place → Loc
  | .home => d.home
  | .package => d.package

/-- Other contents at a place. -/
def Disk.set (d : Disk) (l : Loc) : Place → Disk
  | .home => { d with home := l }
  | .package => { d with package := l }

/-- `os.path.exists(path + r)`, `iaca_get.py:67`: links are followed. -/
def Dir.exists (d : Dir) (r : String) : Bool := d.links.any fun l => l.1 == r && d.versions.any (·.1 == l.2)

/-- `iaca_get.py:64-71`: all required tools are in `bin/` -/
def Loc.valid (l : Loc) : Bool :=
  match l.dir with
  | none => false
  | some d => ["iaca2.2", "iaca2.3", "iaca3.0"].all d.exists

/-- `iaca_get.py:60-73` `find_iaca`; `none` stands for `RuntimeError`. -/
def findIaca (d : Disk) : Option Place :=
  if d.home.valid then some .home else if d.package.valid then some .package else none

/-- Steps of the installation into the new directory. -/
inductive Step where
  | extract (version : String)
  | link (name version : String)
deriving DecidableEq, Repr

/-- `iaca_get.py:125-257`; `os.mkdir(base_dir + 'bin')` is part of the first link. -/
def steps : List Step :=
  [.extract "v2.1", .extract "v2.2", .extract "v2.3", .extract "v3.0",
    .link "iaca2.1" "v2.1", .link "iaca2.2" "v2.2", .link "iaca2.3" "v2.3", .link "iaca3.0" "v3.0"]

/-- One step. -/
def Step.run (os : Os) (d : Dir) : Step → Dir
  | .extract v => { d with versions := d.versions ++ [(v, os)] }
  | .link n v => { d with links := d.links ++ [(n, v)] }

/-- The contents after the steps. -/
def runSteps (os : Os) (l : List Step) : Dir := l.foldl (Step.run os) ⟨[], []⟩

/-- How a run ends. -/
inductive End where
  | already                 -- `sys.exit()`, line 84
  | license                 -- `sys.exit(1)`, line 95
  | assertion               -- `AssertionError`
  | aborted                 -- `sys.exit(1)`, line 121
  | failed (p : Place)      -- a step of the installation raised
  | installed (p : Place)
deriving DecidableEq, Repr

/-- `"--I-accept-…"`, `iaca_get.py:88` -/
def accept : String := "--I-accept-the-Intel-What-If-Pre-Release-License-Agreement-and-please-take-my-soul"

/-- `iaca_get.py:103-123`: `os.makedirs` fails for directories that exist and without permission. The package comes first. -/
def choose (d : Disk) : Option Place :=
  if d.package.dir.isNone && d.package.allowed then some .package
  else if d.home.dir.isNone && d.home.allowed then some .home
  else none

/-- `iaca_get.py:103-257`, with the place to install to; `ok` is the number of steps that succeed. -/
def install (os : Os) (ok : Nat) (d : Disk) : End × Disk :=
  match choose d with
  | none => (.aborted, d)
  | some p =>
    let d' := d.set { d.at p with dir := some (runSteps os (steps.take ok)) } p
    (if ok < steps.length then .failed p else .installed p, d')

/-- `iaca_get.py:87-101`: the licence and the system; `machine` is what `get_os` returns -/
def checked (machine : Os) (argv : List String) (ok : Nat) (d : Disk) : End × Disk :=
  match argv with
  | _ :: a :: rest =>
    if a != accept then (.license, d)
    else match rest with
      | [] => install machine ok d
      | s :: _ =>
        match Os.ofArg s with
        | none => (.assertion, d)
        | some os => install os ok d
  | _ => (.license, d)

/-- `iaca_get.py:76-258` `main`. `machine` is `none` for systems that `get_os` does not know: its `AssertionError` is not caught by `except RuntimeError`. `--force`
is removed from the arguments only if IACA is found. -/
def main (machine : Option Os) (argv : List String) (ok : Nat) (d : Disk) : End × Disk :=
  match machine with
  | none => (.assertion, d)
  | some m =>
    match findIaca d with
    | some _ => if argv.contains "--force" then checked m (argv.erase "--force") ok d else (.already, d)
    | none => checked m argv ok d

end Verif.Install
