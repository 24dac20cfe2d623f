import Verif.Model.Topology

/-!
The text of a kernel that is given to the parser (`kernel.py:752`, `865-873`, `879-885`).
-/

namespace Verif.KernelText

open Verif.Text Verif.Topology

/-- Lines 868-872: a line up to the first `//`. -/
def cutLine (l : List Char) : List Char :=
  let i := find "//".toList l
  if i > -1 then l.take i.toNat else l

/-- `_strip_comments` (865-873) -/
def stripComments (code : List Char) : List Char := joinNl ((splitNl code).map cutLine)

/-- `_as_function` (879-885), as called before parsing: without a file name. -/
def asFunction (code : List Char) : List Char :=
  "#line 0 \nvoid test() {\n#line 1 \n".toList ++ code ++ "\n#line 999 \n}".toList

/-- Line 752: what is parsed. -/
def parsed (code : List Char) : List Char := stripComments (asFunction code)

end Verif.KernelText
