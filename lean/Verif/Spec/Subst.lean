import Verif.Model.Replace

/-!
Substitution in syntax trees, without order of traversal.
-/

namespace Verif.Subst

open Verif.Replace

mutual
/-- The identifiers of a tree, from left to right. -/
def names : Tree → List String
  | .id m => [m]
  | .node _ fs => fieldNames fs
def fieldNames : List Field → List String
  | [] => []
  | .one t :: fs => names t ++ fieldNames fs
  | .many ts :: fs => listNames ts ++ fieldNames fs
def listNames : List Tree → List String
  | [] => []
  | t :: ts => names t ++ listNames ts
end

/-- The nodes to insert. -/
def nodes : Rep → List Tree
  | .single t => [t]
  | .list ts => ts

mutual
/-- `t'` is `t` with all identifiers `n` below its root replaced. -/
inductive Is (n : String) (rep : Rep) : Tree → Tree → Prop
  | id (m : String) : Is n rep (.id m) (.id m)
  | node (l : String) (fs gs : List Field) (h : IsFields n rep fs gs) : Is n rep (.node l fs) (.node l gs)
inductive IsFields (n : String) (rep : Rep) : List Field → List Field → Prop
  | nil : IsFields n rep [] []
  | here (fs gs : List Field) (h : IsFields n rep fs gs) : IsFields n rep (.one (.id n) :: fs) (rep.field :: gs)
  | one (t u : Tree) (fs gs : List Field) (hn : t ≠ .id n) (ht : Is n rep t u) (h : IsFields n rep fs gs) :
      IsFields n rep (.one t :: fs) (.one u :: gs)
  | many (ts us : List Tree) (fs gs : List Field) (ht : IsList n rep ts us) (h : IsFields n rep fs gs) :
      IsFields n rep (.many ts :: fs) (.many us :: gs)
inductive IsList (n : String) (rep : Rep) : List Tree → List Tree → Prop
  | nil : IsList n rep [] []
  | here (ts us : List Tree) (h : IsList n rep ts us) : IsList n rep (.id n :: ts) (nodes rep ++ us)
  | cons (t u : Tree) (ts us : List Tree) (hn : t ≠ .id n) (ht : Is n rep t u) (h : IsList n rep ts us) :
      IsList n rep (t :: ts) (u :: us)
end

mutual
/-- After an identifier `n` in a list comes a node without `n`. -/
def Apart (n : String) : Tree → Prop
  | .id _ => True
  | .node _ fs => ApartFields n fs
def ApartFields (n : String) : List Field → Prop
  | [] => True
  | .one t :: fs => Apart n t ∧ ApartFields n fs
  | .many ts :: fs => ApartList n ts ∧ ApartFields n fs
def ApartList (n : String) : List Tree → Prop
  | [] => True
  | t :: ts => Apart n t ∧ (t = .id n → n ∉ names (ts.headD (.node "" []))) ∧ ApartList n ts
end

end Verif.Subst
