/-!
C code as a tree of statements and blocks, how it is written, and matching braces.
-/

namespace Verif.Whole

/-- Braces, semicolons and everything else. Parentheses with what they enclose are one word. -/
inductive Tok where
  | word (s : String)
  | semi
  | lb
  | rb
deriving DecidableEq, Repr

/-- A sequence of statements: words with a semicolon, or words (`for (…)` or none) with a block. -/
inductive Items where
  | nil
  | stmt (ws : List String) (rest : Items)
  | block (ws : List String) (inner rest : Items)
deriving DecidableEq, Repr

/-- The code of statements. -/
def Items.print : Items → List Tok
  | .nil => []
  | .stmt ws rest => ws.map .word ++ .semi :: rest.print
  | .block ws inner rest => ws.map .word ++ .lb :: (inner.print ++ .rb :: rest.print)

/-- No closing brace comes before its opening brace. -/
def Matched (ts : List Tok) : Prop := ∀ p, p <+: ts → p.count .rb ≤ p.count .lb

/-- What statements, headings of blocks, declarations outside of functions and headings of functions are. -/
structure Grammar where
  stmt : List String → Bool
  head : List String → Bool
  decl : List String → Bool
  fn : List String → Bool

/-- Statements of a function. -/
def Items.valid (g : Grammar) : Items → Bool
  | .nil => true
  | .stmt ws rest => g.stmt ws && rest.valid g
  | .block ws inner rest => g.head ws && inner.valid g && rest.valid g

/-- What may be outside of functions: declarations and functions. -/
inductive Outside (g : Grammar) : Items → Prop
  | nil : Outside g .nil
  | decl {ws : List String} {rest : Items} (h : g.decl ws = true) (hr : Outside g rest) : Outside g (.stmt ws rest)
  | fn {ws : List String} {inner rest : Items} (h : g.fn ws = true) (hi : inner.valid g = true) (hr : Outside g rest) :
    Outside g (.block ws inner rest)

end Verif.Whole
