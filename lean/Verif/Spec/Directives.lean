/-!
Preprocessor directives of C: which lines of a file belong to macros and which to pragmas. A directive is a line whose
first character besides blanks is `#`; it goes on while lines end with a backslash. Blanks are spaces and tabs.
-/

namespace Verif.Directives

/-- What a line belongs to. -/
inductive Kind where
  | code
  | macro
  | pragma
deriving DecidableEq, Repr

/-- Space or tab. -/
def blank (c : Char) : Bool := c == ' ' || c == '\t'

/-- Characters of identifiers. -/
def identChar (c : Char) : Bool := c.isAlphanum || c == '_'

/-- The name of a directive, from the text behind `#`. -/
def name (s : List Char) : List Char := (s.dropWhile blank).takeWhile identChar

/-- The kind of a line that does not continue another one. -/
def startKind (l : List Char) : Kind :=
  match l.dropWhile blank with
  | '#' :: r => if name r = ['p', 'r', 'a', 'g', 'm', 'a'] then .pragma else .macro
  | _ => .code

/-- Does the next line continue this one? -/
def continues (l : List Char) : Bool := l.getLast? == some '\\'

/-- Kinds of all lines; the first argument is the kind of the line that is continued. -/
def kinds : Option Kind → List (List Char) → List Kind
  | _, [] => []
  | c, l :: ls =>
    let k := c.getD (startKind l)
    k :: kinds (if continues l then some k else none) ls

/-- The lines without the lines of the given kinds. -/
def without (removed : Kind → Bool) (ks : List Kind) (ls : List (List Char)) : List (List Char) :=
  List.zipWith (fun k l => if removed k then [] else l) ks ls

/-- Kinds that are to be removed. -/
def removed (macros pragmas : Bool) : Kind → Bool
  | .code => false
  | .macro => macros
  | .pragma => pragmas

end Verif.Directives
