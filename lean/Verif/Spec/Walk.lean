import Mathlib.Data.List.Basic

/-!
Meaning of a path in a file system without symbolic links: the sequence of directory names from the root.
-/

namespace Verif.Paths

/-- Follow one name: the empty name and `.` stay, `..` goes up (at the root it stays), others go down. -/
def follow (dir : List (List Char)) (name : List Char) : List (List Char) :=
  if name = [] then dir
  else if name = ['.'] then dir
  else if name = ['.', '.'] then dir.dropLast
  else dir ++ [name]

/-- Read a path character by character in directory `dir` after having read `cur` of the current name. -/
def walk (dir : List (List Char)) (cur : List Char) : List Char → List (List Char)
  | [] => follow dir cur
  | c :: cs => if c = '/' then walk (follow dir cur) [] cs else walk dir (cur ++ [c]) cs

/-- The file denoted by a path in working directory `cwd`. -/
def resolve (cwd : List (List Char)) (p : List Char) : List (List Char) :=
  if p.head? = some '/' then walk [] [] p else walk cwd [] p

/-- Names of files and directories: not empty, no slash, neither `.` nor `..`. -/
def Proper (n : List Char) : Prop := n ≠ [] ∧ n ≠ ['.'] ∧ n ≠ ['.', '.'] ∧ '/' ∉ n

end Verif.Paths
