/-!
Specification for C150: scopes of names in C. A declaration adds a name to the innermost scope, where it may occur only
once; a name stands for the innermost declaration.
-/

namespace Verif.Spec

/-- What a name stands for: something of a header or of the program itself, an argument of a function, a variable or constant of
the kernel, the counter of a loop of the kernel, or a variable that only the generated code has. -/
inductive Thing where
  | file (name : String)
  | arg (name : String)
  | var (name : String)
  | counter (name : String)
  | own (name : String)
deriving DecidableEq, Repr

/-- Code, as far as names are concerned: begin and end of a scope, a declaration, and a use of a name for the thing that is meant. -/
inductive Event where
  | enter
  | leave
  | decl (name : String) (t : Thing)
  | use (name : String) (t : Thing)
deriving DecidableEq, Repr

/-- The scopes, innermost first. -/
abbrev Scopes := List (List (String × Thing))

/-- The innermost declaration of a name. -/
def find (s : Scopes) (n : String) : Option Thing := s.flatten.lookup n

/-- One step; `none` if a name is declared twice in a scope, is not declared or stands for something else. -/
def step : Scopes → Event → Option Scopes
  | s, .enter => some ([] :: s)
  | _ :: s, .leave => some s
  | sc :: s, .decl n t => if n ∈ sc.map Prod.fst then none else some (((n, t) :: sc) :: s)
  | s, .use n t => if find s n = some t then some s else none
  | [], _ => none

/-- All steps. -/
def run (s : Scopes) (es : List Event) : Option Scopes := es.foldlM step s

/-- All names stand for what is meant. -/
def Meant (es : List Event) : Prop := ∃ s, run [[]] es = some s

instance (es : List Event) : Decidable (Meant es) :=
  decidable_of_iff ((run [[]] es).isSome = true) Option.isSome_iff_exists

end Verif.Spec
