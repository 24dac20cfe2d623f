import Mathlib.Data.List.Basic

/-!
Paths of intermediate files: `KernelCode.get_intermediate_location` (`kernel.py:762-797`), `reduce_path`
(`kernel.py:209-215`) and the functions of `posixpath` they use. Texts are lists of characters. Files are named (the
branch with `tempfile.mkdtemp`, `kernel.py:775-776`, is not modelled), neither is the creation of directories.
-/

namespace Verif.Paths

/-- `path.split('/')` -/
def splitSlash : List Char → List (List Char)
  | [] => [[]]
  | c :: cs =>
    if c = '/' then [] :: splitSlash cs
    else match splitSlash cs with
      | l :: ls => (c :: l) :: ls
      | [] => [[c]]

/-- `sep.join` of a list of texts. -/
def joinWith (sep : List Char) : List (List Char) → List Char
  | [] => []
  | [l] => l
  | l :: ls => l ++ (sep ++ joinWith sep ls)

/-- `s.rstrip('/')` -/
def rstripSlash (s : List Char) : List Char := (s.reverse.dropWhile (· == '/')).reverse

/-- `posixpath.split(p)[0]` before slashes are stripped: `p[:p.rfind('/') + 1]`. -/
def headPart (p : List Char) : List Char := (p.reverse.dropWhile (· != '/')).reverse

/-- `posixpath.basename`: `p[p.rfind('/') + 1:]` -/
def basename (p : List Char) : List Char := (p.reverse.takeWhile (· != '/')).reverse

/-- `posixpath.dirname` -/
def dirname (p : List Char) : List Char :=
  if headPart p ≠ [] ∧ (headPart p).any (· != '/') then rstripSlash (headPart p) else headPart p

/-- `posixpath.join` of two paths. -/
def join (a b : List Char) : List Char :=
  if b.head? = some '/' then b
  else if a = [] ∨ a.getLast? = some '/' then a ++ b
  else a ++ '/' :: b

/-- One step of the loop in `posixpath.normpath`, for a path that begins with a slash. -/
def normStep (acc : List (List Char)) (comp : List Char) : List (List Char) :=
  if comp = [] ∨ comp = ['.'] then acc
  else if comp ≠ ['.', '.'] ∨ acc.getLast? = some ['.', '.'] then acc ++ [comp]
  else acc.dropLast

/-- Components of `posixpath.abspath(p)` in the working directory `cwd`. -/
def absComps (cwd p : List Char) : List (List Char) := (splitSlash (join cwd p)).foldl normStep []

/-- Length of the common prefix, `posixpath.commonprefix`. -/
def common : List (List Char) → List (List Char) → Nat
  | a :: as, b :: bs => if a = b then common as bs + 1 else 0
  | _, _ => 0

/-- `posixpath.relpath(p)`: `start` is the working directory. -/
def relpath (cwd p : List Char) : List Char :=
  let start := absComps cwd ['.']
  let path := absComps cwd p
  let i := common start path
  let rel := List.replicate (start.length - i) ['.', '.'] ++ path.drop i
  if rel = [] then ['.'] else joinWith ['/'] rel

/-- `kernel.py:209-215` `reduce_path` -/
def reducePath (cwd p : List Char) : List Char :=
  let r := relpath cwd p
  if r.length < p.length then r else p

/-- Lines 772-774: the directory of a kernel file. -/
def kernelDir (file : List Char) : List Char := join (dirname file) ('.' :: (basename file ++ "_kerncraft".toList))

/-- Machine and compiler of `_machine.get_identifier()` and `_machine.get_compiler()`. -/
structure Setup where
  identifier : List Char
  compiler : List Char
  args : List (List Char)
deriving DecidableEq, Repr

/-- `machinemodel.py:404-407`: machines are identified by the name of their file. Machines that are not read from a
file are not modelled (line 409 raises a `TypeError`). -/
def machineIdentifier (path : List Char) : List Char := basename path

/-- Line 784 -/
def argsText (args : List (List Char)) : List Char := (joinWith ['_'] args).filter (· != '/')

/-- Lines 782-786, the text that is appended. -/
def setupText (s : Setup) : List Char := '/' :: (s.identifier ++ '/' :: (s.compiler ++ '/' :: (argsText s.args ++ ['/'])))

/-- Line 781 -/
def setupPart : Option Setup → List Char
  | some s => setupText s
  | none => []

/-- Lines 772-789: the directory. `setup` is `none` if the file does not depend on machine and compiler. -/
def directory (file : List Char) (setup : Option Setup) (deps : List (List Char)) : List Char :=
  deps.foldl (fun b d => join b (d.filter (· != '/')))
    (kernelDir file ++ setupPart setup)

/-- `kernel.py:762-797` `get_intermediate_location` in the working directory `cwd`. -/
def location (cwd file : List Char) (setup : Option Setup) (deps : List (List Char)) (name : List Char) : List Char :=
  reducePath cwd (join (directory file setup deps) name)

end Verif.Paths
