/-!
Model of `replace_id` (`kerncraft/pycparser_utils.py:57-86`) and of its use in `Kernel.get_main_code`
(`kerncraft/kernel.py:1469-1569`).

Syntax trees are values; identifiers are different objects, as the parser makes them, so that `is` finds one position.
A single attribute that has been replaced by a list counts as list attribute from then on.
-/

namespace Verif.Replace

mutual
/-- Nodes of pycparser: identifiers, and other nodes with their attributes. -/
inductive Tree where
  | id (name : String)
  | node (label : String) (fields : List Field)
/-- Attributes with a single node or a list of nodes. -/
inductive Field where
  | one (t : Tree)
  | many (ts : List Tree)
end

/-- The argument `replacement`: a node or a list of nodes. -/
inductive Rep where
  | single (t : Tree)
  | list (ts : List Tree)

/-- Lines 74-75: a single attribute gets the replacement. -/
def Rep.field : Rep → Field
  | .single t => .one t
  | .list ts => .many ts

mutual
/-- Lines 57-86. The first argument bounds the number of steps. -/
def visit (n : String) (rep : Rep) : Nat → Tree → Option Tree
  | 0, _ => none
  | _ + 1, .id m => some (.id m)
  | k + 1, .node l fs => (visitFields n rep k fs).map (.node l)

/-- Children of a node, attribute by attribute. -/
def visitFields (n : String) (rep : Rep) : Nat → List Field → Option (List Field)
  | 0, _ => none
  | _ + 1, [] => some []
  | k + 1, .one (.id m) :: fs => (visitFields n rep k fs).map ((if m = n then rep.field else .one (.id m)) :: ·)
  | k + 1, .one (.node l gs) :: fs => match visit n rep k (.node l gs), visitFields n rep k fs with
    | some t, some fs => some (.one t :: fs)
    | _, _ => none
  | k + 1, .many ts :: fs => match visitItems n rep k ts, visitFields n rep k fs with
    | some ts, some fs => some (.many ts :: fs)
    | _, _ => none

/-- Children in a list, which changes during the iteration (lines 77-84): the first inserted node is not visited, the others
are; if nothing is inserted the following node is not visited. -/
def visitItems (n : String) (rep : Rep) : Nat → List Tree → Option (List Tree)
  | 0, _ => none
  | _ + 1, [] => some []
  | k + 1, .id m :: ts =>
    if m = n then match rep with
      | .single t => (visitItems n rep k ts).map (t :: ·)
      | .list [] => match ts with
        | [] => some []
        | x :: ts => (visitItems n rep k ts).map (x :: ·)
      | .list (r :: rs) => (visitItems n rep k (rs ++ ts)).map (r :: ·)
    else (visitItems n rep k ts).map (.id m :: ·)
  | k + 1, .node l fs :: ts => match visit n rep k (.node l fs), visitItems n rep k ts with
    | some t, some ts => some (t :: ts)
    | _, _ => none
end

/-- A statement without placeholders. -/
def stmt (text : String) : Tree := .node text []

/-- A block of statements. -/
def block (ts : List Tree) : Tree := .node "compound" [.many ts]

/-- The parts of the main program. -/
structure Parts where
  consts : List Tree
  arrays : List Tree
  scalars : List Tree
  init : List Tree
  dummy : Tree
  call : Tree

/-- Lines 1469-1514: the main program, for given nodes at the places of the placeholders. -/
def program (consts arrays scalars init dummy call : List Tree) : Tree :=
  .node "file" [.many [stmt "void dummy(void *)", stmt "extern int var_false", .node "function" [.one (stmt "int main(int argc, char **argv)"),
    .one (block (consts ++ arrays ++ scalars ++ [stmt "likwid_markerInit()", stmt "omp parallel",
      block ([stmt "likwid_markerRegisterRegion", stmt "omp barrier"] ++ init ++ dummy ++
        [.node "for" [.one (stmt "int warmup = 1"), .one (stmt "warmup >= 0"), .one (stmt "--warmup"),
          .one (block [stmt "int repeat = 2",
            .node "if" [.one (stmt "warmup == 0"), .one (block [stmt "repeat = atoi(argv[1])", stmt "likwid_markerStartRegion"])],
            .node "for" [.one (stmt "repeat > 0"), .one (stmt "--repeat"), .one (block (call ++ dummy))]])],
        stmt "likwid_markerStopRegion"]),
      stmt "likwid_markerClose()", stmt "return 0"])), .many []]]]

/-- Lines 1469-1514: the template. -/
def template : Tree :=
  program [.id "DECLARE_CONSTS"] [.id "DECLARE_ARRAYS"] [.id "DECLARE_INIT_SCALARS"] [.id "INIT_ARRAYS"] [.id "DUMMY_CALLS"]
    [.id "KERNEL_CALL"]

/-- Lines 1540-1563: the replacements, in this order. -/
def replacements (p : Parts) : List (String × Rep) :=
  [("DECLARE_CONSTS", .list p.consts), ("DECLARE_ARRAYS", .list p.arrays), ("DECLARE_INIT_SCALARS", .list p.scalars),
   ("DUMMY_CALLS", .single p.dummy), ("KERNEL_CALL", .single p.call), ("INIT_ARRAYS", .list p.init)]

/-- Lines 1540-1563. -/
def mainCode (fuel : Nat) (p : Parts) : Option Tree := (replacements p).foldlM (fun t r => visit r.1 r.2 fuel t) template

end Verif.Replace
