import Verif.Spec.Whole

/-!
Which part of the code of a kernel is analysed: `KernelCode.__init__` (`kernel.py:751-756`) with `_as_function` (879-885). The parser of pycparser is
modelled as far as statements, blocks and functions go; grammar of statements and declarations is a parameter. Comments and lines are in `KernelText`
(C128), what is done with the statements is in `Sections` (C55). Lists in braces (initialisers) and `struct`s are left out.
-/

namespace Verif.Whole

/-- The words up to the next other token. -/
def words : List Tok → List String × List Tok
  | .word s :: ts => (s :: (words ts).1, (words ts).2)
  | ts => ([], ts)

/-- Statements up to a closing brace or the end. Fuel is for the recursion. -/
def items : Nat → List Tok → Option (Items × List Tok)
  | 0, _ => none
  | _ + 1, [] => some (.nil, [])
  | _ + 1, .rb :: ts => some (.nil, .rb :: ts)
  | n + 1, ts =>
    match (words ts).2 with
    | .semi :: r =>
      match items n r with
      | some (x, r) => some (.stmt (words ts).1 x, r)
      | none => none
    | .lb :: r =>
      match items n r with
      | some (i, .rb :: r) =>
        match items n r with
        | some (x, r) => some (.block (words ts).1 i x, r)
        | none => none
      | _ => none
    | _ => none

/-- What is outside of functions: declarations and functions. -/
def external (g : Grammar) : Items → Bool
  | .nil => true
  | .stmt ws rest => g.decl ws && external g rest
  | .block ws inner rest => g.fn ws && inner.valid g && external g rest

/-- Lines 879-885 `_as_function` -/
def asFunction (code : List Tok) : List Tok := .word "void" :: .word "test()" :: .lb :: (code ++ [.rb])

/-- Lines 751-756: the function is parsed, and `ext[0].body` is the kernel. -/
def kernelAst (g : Grammar) (code : List Tok) : Except String Items :=
  match items (code.length + 5) (asFunction code) with
  | some (.block _ body rest, []) => if body.valid g && external g rest then .ok body else .error "ParseError"
  | _ => .error "ParseError"

end Verif.Whole
