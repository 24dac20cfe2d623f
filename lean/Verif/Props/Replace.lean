import Verif.Lemmas.Replace

/-!
C94: placeholders of the generated main program are replaced.
-/

namespace Verif.Replace

open Verif.Subst

/-- C94: `replace_id` ends, and gives the tree with all identifiers of that name below the root replaced. Missing: inserted
nodes that contain the name (`C94_negation_endless`), and an empty list for neighbouring placeholders
(`C94_negation_skipped`). -/
theorem C94_replaced_partial (n : String) (rep : Rep) (hf : n ∉ listNames (nodes rep)) (t : Tree)
    (ha : nodes rep = [] → Apart n t) :
    ∃ u, Is n rep t u ∧ (∃ k, visit n rep k t = some u) ∧ ∀ k v, visit n rep k t = some v → v = u := by
  obtain ⟨k, u, h⟩ := visit_ends n rep hf t
  have hs := (visit_sound n rep hf k).1 t u ha h
  exact ⟨u, hs, ⟨k, h⟩, fun j v hv => is_unique n rep t v u ((visit_sound n rep hf j).1 t v ha hv) hs⟩

mutual
theorem is_names (n : String) (rep : Rep) : ∀ t u : Tree, Is n rep t u → t ≠ .id n →
    names u = (names t).flatMap fun m => if m = n then listNames (nodes rep) else [m]
  | .id m, u, h, hn => by cases h; have : m ≠ n := by simpa using hn
                          simp [names, this]
  | .node l fs, u, h, _ => by
    cases h with
    | node _ _ gs h => simpa [names] using isFields_names n rep fs gs h
theorem isFields_names (n : String) (rep : Rep) : ∀ fs gs : List Field, IsFields n rep fs gs →
    fieldNames gs = (fieldNames fs).flatMap fun m => if m = n then listNames (nodes rep) else [m]
  | [], _, h => by cases h; rfl
  | .one t :: fs, _, h => by
    cases h with
    | here _ gs h =>
      cases rep <;> simp [fieldNames, names, Rep.field, nodes, listNames, isFields_names n _ fs gs h]
    | one _ u _ gs hn ht h =>
      simp [fieldNames, is_names n rep t u ht hn, isFields_names n rep fs gs h]
  | .many ts :: fs, _, h => by
    cases h with
    | many _ us _ gs ht h => simp [fieldNames, isList_names n rep ts us ht, isFields_names n rep fs gs h]
theorem isList_names (n : String) (rep : Rep) : ∀ ts us : List Tree, IsList n rep ts us →
    listNames us = (listNames ts).flatMap fun m => if m = n then listNames (nodes rep) else [m]
  | [], _, h => by cases h; rfl
  | t :: ts, _, h => by
    cases h with
    | here _ us h => simp [listNames, names, listNames_append, isList_names n rep ts us h]
    | cons _ u _ us hn ht h => simp [listNames, is_names n rep t u ht hn, isList_names n rep ts us h]
end

/-- C94: all other identifiers stay in their order, and the name is gone. -/
theorem C94_names (n : String) (rep : Rep) (t u : Tree) (h : Is n rep t u) (hn : t ≠ .id n) (hf : n ∉ listNames (nodes rep)) :
    (names u = (names t).flatMap fun m => if m = n then listNames (nodes rep) else [m]) ∧ n ∉ names u := by
  refine ⟨is_names n rep t u h hn, ?_⟩
  rw [is_names n rep t u h hn, List.mem_flatMap]
  rintro ⟨m, -, hm⟩
  split at hm
  · exact hf hm
  · rename_i e
    exact e (List.mem_singleton.1 hm).symm

/-- The placeholders of the template. -/
def placeholders : List String :=
  ["DECLARE_CONSTS", "DECLARE_ARRAYS", "DECLARE_INIT_SCALARS", "DUMMY_CALLS", "KERNEL_CALL", "INIT_ARRAYS"]

/-- No placeholder occurs in the nodes. -/
def Clear (ts : List Tree) : Prop := ∀ n ∈ placeholders, n ∉ listNames ts

theorem is_stmt (n : String) (rep : Rep) (s : String) : Is n rep (stmt s) (stmt s) := .node s [] [] .nil

/-- Substitution in the program is substitution in its parts. -/
theorem is_program (n : String) (rep : Rep) (c a s i d k c' a' s' i' d' k' : List Tree) (hc : IsList n rep c c')
    (ha : IsList n rep a a') (hs : IsList n rep s s') (hi : IsList n rep i i') (hd : IsList n rep d d') (hk : IsList n rep k k') :
    Is n rep (program c a s i d k) (program c' a' s' i' d' k') := by
  have one : ∀ (t u : Tree) (fs gs : List Field), t ≠ .id n → Is n rep t u → IsFields n rep fs gs →
      IsFields n rep (.one t :: fs) (.one u :: gs) := fun t u fs gs h1 h2 h3 => .one t u fs gs h1 h2 h3
  have cons : ∀ (t u : Tree) (ts us : List Tree), t ≠ .id n → Is n rep t u → IsList n rep ts us →
      IsList n rep (t :: ts) (u :: us) := fun t u ts us h1 h2 h3 => .cons t u ts us h1 h2 h3
  have blk : ∀ ts us, IsList n rep ts us → Is n rep (block ts) (block us) := fun ts us h => .node _ _ _ (.many _ _ _ _ h .nil)
  have sn : ∀ x, stmt x ≠ .id n := fun x => by simp [stmt]
  have bn : ∀ x, block x ≠ .id n := fun x => by simp [block]
  have st := is_stmt n rep
  have body : IsList n rep (k ++ d) (k' ++ d') := isList_append _ _ _ _ _ _ hk hd
  have for2 : Is n rep (.node "for" [.one (stmt "repeat > 0"), .one (stmt "--repeat"), .one (block (k ++ d))])
      (.node "for" [.one (stmt "repeat > 0"), .one (stmt "--repeat"), .one (block (k' ++ d'))]) :=
    .node _ _ _ (one _ _ _ _ (sn _) (st _) (one _ _ _ _ (sn _) (st _) (one _ _ _ _ (bn _) (blk _ _ body) .nil)))
  have iff : Is n rep (.node "if" [.one (stmt "warmup == 0"), .one (block [stmt "repeat = atoi(argv[1])", stmt "likwid_markerStartRegion"])])
      (.node "if" [.one (stmt "warmup == 0"), .one (block [stmt "repeat = atoi(argv[1])", stmt "likwid_markerStartRegion"])]) :=
    .node _ _ _ (one _ _ _ _ (sn _) (st _) (one _ _ _ _ (bn _)
      (blk _ _ (cons _ _ _ _ (sn _) (st _) (cons _ _ _ _ (sn _) (st _) .nil))) .nil))
  have for1 := Is.node (n := n) (rep := rep) "for" _ _ (one _ _ _ _ (sn _) (st "int warmup = 1") (one _ _ _ _ (sn _) (st "warmup >= 0")
    (one _ _ _ _ (sn _) (st "--warmup") (one _ _ _ _ (bn _) (blk _ _ (cons _ _ _ _ (sn _) (st "int repeat = 2")
      (cons _ _ _ _ (by simp) iff (cons _ _ _ _ (by simp) for2 .nil)))) .nil))))
  have inner := blk _ _ (isList_append _ _ _ _ _ _ (isList_append _ _ _ _ _ _ (isList_append _ _ _ _ _ _
    (cons _ _ _ _ (sn _) (st "likwid_markerRegisterRegion") (cons _ _ _ _ (sn _) (st "omp barrier") .nil)) hi) hd)
    (cons _ _ _ _ (by simp) for1 (cons _ _ _ _ (sn _) (st "likwid_markerStopRegion") .nil)))
  have outer := blk _ _ (isList_append _ _ _ _ _ _ (isList_append _ _ _ _ _ _ (isList_append _ _ _ _ _ _ hc ha) hs)
    (cons _ _ _ _ (sn _) (st "likwid_markerInit()") (cons _ _ _ _ (sn _) (st "omp parallel") (cons _ _ _ _ (bn _) inner
      (cons _ _ _ _ (sn _) (st "likwid_markerClose()") (cons _ _ _ _ (sn _) (st "return 0") .nil))))))
  exact .node _ _ _ (.many _ _ _ _ (cons _ _ _ _ (sn _) (st _) (cons _ _ _ _ (sn _) (st _) (cons _ _ _ _ (by simp)
    (.node _ _ _ (one _ _ _ _ (sn _) (st _) (one _ _ _ _ (bn _) outer (.many _ _ _ _ .nil .nil)))) .nil))) .nil)

theorem names_program (c a s i d k : List Tree) :
    names (program c a s i d k) = listNames c ++ listNames a ++ listNames s ++ listNames i ++ listNames d ++ listNames k ++ listNames d := by
  simp [program, names, fieldNames, listNames, listNames_append, stmt, block]

mutual
theorem apart_of_count (n : String) : ∀ t : Tree, (names t).count n ≤ 1 → Apart n t
  | .id m, _ => by simp [Apart]
  | .node l fs, h => by simpa [Apart] using apartFields_of_count n fs (by simpa [names] using h)
theorem apartFields_of_count (n : String) : ∀ fs : List Field, (fieldNames fs).count n ≤ 1 → ApartFields n fs
  | [], _ => by simp [ApartFields]
  | .one t :: fs, h => by
    simp only [fieldNames, List.count_append] at h
    simp only [ApartFields]
    exact ⟨apart_of_count n t (by omega), apartFields_of_count n fs (by omega)⟩
  | .many ts :: fs, h => by
    simp only [fieldNames, List.count_append] at h
    simp only [ApartFields]
    exact ⟨apartList_of_count n ts (by omega), apartFields_of_count n fs (by omega)⟩
theorem apartList_of_count (n : String) : ∀ ts : List Tree, (listNames ts).count n ≤ 1 → ApartList n ts
  | [], _ => by simp [ApartList]
  | t :: ts, h => by
    simp only [listNames, List.count_append] at h
    simp only [ApartList]
    refine ⟨apart_of_count n t (by omega), ?_, apartList_of_count n ts (by omega)⟩
    rintro rfl
    simp only [names, List.count_singleton_self] at h
    cases ts with
    | nil => simp [names, fieldNames]
    | cons u us =>
      simp only [listNames, List.count_append] at h
      simp only [List.headD_cons]
      exact List.count_eq_zero.1 (by omega)
end

/-- One step, for parts in which the placeholder occurs once at most if nothing is inserted. -/
theorem visit_eq (n : String) (rep : Rep) (hf : n ∉ listNames (nodes rep)) (t u : Tree)
    (hc : nodes rep = [] → (names t).count n ≤ 1) (h : Is n rep t u) : ∃ k, ∀ j, k ≤ j → visit n rep j t = some u := by
  obtain ⟨v, hv, ⟨k, hk⟩, -⟩ := C94_replaced_partial n rep hf t fun e => apart_of_count n t (hc e)
  rw [is_unique n rep t u v h hv]
  exact ⟨k, fun j hj => (visit_le n rep k j hj).1 t v hk⟩

/-- C94: the main program consists of its parts in the places of the placeholders, in this order; arrays and constants are
declared before the kernel is called, for instance. Missing: kernels in which names of placeholders are used
(`C94_negation_name`). -/
theorem C94_main_partial (p : Parts) (hc : Clear p.consts) (ha : Clear p.arrays) (hs : Clear p.scalars) (hi : Clear p.init)
    (hd : Clear [p.dummy]) (hk : Clear [p.call]) :
    ∃ fuel, ∀ j, fuel ≤ j → mainCode j p = some (program p.consts p.arrays p.scalars p.init [p.dummy] [p.call]) := by
  have self : ∀ n rep ts, n ∈ placeholders → Clear ts → IsList n rep ts ts := fun n rep ts hn h => isList_self n rep ts (h n hn)
  have other : ∀ n m rep, n ≠ m → IsList n rep [.id m] [.id m] := fun n m rep h =>
    .cons _ _ _ _ (by simpa using Ne.symm h) (.id m) .nil
  have here : ∀ n ts, IsList n (.list ts) [.id n] ts := fun n ts => by
    have := IsList.here (n := n) (rep := .list ts) [] [] .nil
    simpa [nodes] using this
  have here1 : ∀ n t, IsList n (.single t) [.id n] [t] := fun n t => .here [] [] .nil
  have zero : ∀ n ts, n ∈ placeholders → Clear ts → (listNames ts).count n = 0 := fun n ts hn h => List.count_eq_zero.2 (h n hn)
  have m1 : "DECLARE_CONSTS" ∈ placeholders := by decide
  have m2 : "DECLARE_ARRAYS" ∈ placeholders := by decide
  have m3 : "DECLARE_INIT_SCALARS" ∈ placeholders := by decide
  have m4 : "DUMMY_CALLS" ∈ placeholders := by decide
  have m5 : "KERNEL_CALL" ∈ placeholders := by decide
  have m6 : "INIT_ARRAYS" ∈ placeholders := by decide
  obtain ⟨k1, h1⟩ := visit_eq "DECLARE_CONSTS" (.list p.consts) (hc _ m1) template _
    (by intro; simp only [template, names_program, listNames, names, List.append_nil]; decide)
    (is_program _ _ _ _ _ _ _ _ _ _ _ _ _ _ (here _ _) (other _ "DECLARE_ARRAYS" _ (by decide))
      (other _ "DECLARE_INIT_SCALARS" _ (by decide)) (other _ "INIT_ARRAYS" _ (by decide))
      (other _ "DUMMY_CALLS" _ (by decide)) (other _ "KERNEL_CALL" _ (by decide)))
  obtain ⟨k2, h2⟩ := visit_eq "DECLARE_ARRAYS" (.list p.arrays) (ha _ m2) _ _
    (by intro; simp only [names_program, List.count_append, zero _ _ m2 hc]; decide)
    (is_program _ _ p.consts _ _ _ _ _ _ _ _ _ _ _ (self _ _ _ m2 hc) (here _ _)
      (other _ "DECLARE_INIT_SCALARS" _ (by decide)) (other _ "INIT_ARRAYS" _ (by decide))
      (other _ "DUMMY_CALLS" _ (by decide)) (other _ "KERNEL_CALL" _ (by decide)))
  obtain ⟨k3, h3⟩ := visit_eq "DECLARE_INIT_SCALARS" (.list p.scalars) (hs _ m3) _ _
    (by intro; simp only [names_program, List.count_append, zero _ _ m3 hc, zero _ _ m3 ha]; decide)
    (is_program _ _ p.consts p.arrays _ _ _ _ _ _ _ _ _ _ (self _ _ _ m3 hc) (self _ _ _ m3 ha) (here _ _)
      (other _ "INIT_ARRAYS" _ (by decide))
      (other _ "DUMMY_CALLS" _ (by decide)) (other _ "KERNEL_CALL" _ (by decide)))
  obtain ⟨k4, h4⟩ := visit_eq "DUMMY_CALLS" (.single p.dummy) (hd _ m4) _ _ (by simp [nodes])
    (is_program _ _ p.consts p.arrays p.scalars _ _ _ _ _ _ _ _ _ (self _ _ _ m4 hc) (self _ _ _ m4 ha) (self _ _ _ m4 hs)
      (other _ "INIT_ARRAYS" _ (by decide)) (here1 _ _) (other _ "KERNEL_CALL" _ (by decide)))
  obtain ⟨k5, h5⟩ := visit_eq "KERNEL_CALL" (.single p.call) (hk _ m5) _ _ (by simp [nodes])
    (is_program _ _ p.consts p.arrays p.scalars _ [p.dummy] _ _ _ _ _ _ _ (self _ _ _ m5 hc) (self _ _ _ m5 ha)
      (self _ _ _ m5 hs) (other _ "INIT_ARRAYS" _ (by decide)) (self _ _ _ m5 hd) (here1 _ _))
  obtain ⟨k6, h6⟩ := visit_eq "INIT_ARRAYS" (.list p.init) (hi _ m6) _ _
    (by intro; simp only [names_program, List.count_append, zero _ _ m6 hc, zero _ _ m6 ha, zero _ _ m6 hs, zero _ _ m6 hd,
          zero _ _ m6 hk]; decide)
    (is_program _ _ p.consts p.arrays p.scalars _ [p.dummy] [p.call] _ _ _ _ _ _ (self _ _ _ m6 hc) (self _ _ _ m6 ha)
      (self _ _ _ m6 hs) (here _ _) (self _ _ _ m6 hd) (self _ _ _ m6 hk))
  refine ⟨max k1 (max k2 (max k3 (max k4 (max k5 k6)))), fun j hj => ?_⟩
  simp only [mainCode, replacements, List.foldlM_cons, List.foldlM_nil]
  rw [h1 j (by omega)]
  simp only [bind, Option.bind]
  rw [h2 j (by omega)]
  simp only
  rw [h3 j (by omega)]
  simp only
  rw [h4 j (by omega)]
  simp only
  rw [h5 j (by omega)]
  simp only
  rw [h6 j (by omega)]
  rfl

/-- C94: identifiers of the main program, from left to right: constants are declared before arrays, both before scalars, then
arrays are initialised, and the kernel is called between calls of `dummy`. -/
theorem C94_order_partial (p : Parts) (hc : Clear p.consts) (ha : Clear p.arrays) (hs : Clear p.scalars) (hi : Clear p.init)
    (hd : Clear [p.dummy]) (hk : Clear [p.call]) : ∃ fuel, ∀ j, fuel ≤ j → (mainCode j p).map names =
    some (listNames p.consts ++ listNames p.arrays ++ listNames p.scalars ++ listNames p.init ++ names p.dummy ++ names p.call ++
      names p.dummy) := by
  obtain ⟨k, h⟩ := C94_main_partial p hc ha hs hi hd hk
  exact ⟨k, fun j hj => by simp [h j hj, names_program, listNames]⟩

/-- Two placeholders in different positions, one of them as single attribute, get two statements each. -/
example : ("X" ∉ listNames (nodes (.list [stmt "a", stmt "b"]))) ∧
    visit "X" (.list [stmt "a", stmt "b"]) 12 (.node "if" [.one (.id "c"), .one (.id "X"), .many [stmt "d", .id "X", .id "e"]]) =
      some (.node "if" [.one (.id "c"), .many [stmt "a", stmt "b"], .many [stmt "d", stmt "a", stmt "b", .id "e"]]) :=
  ⟨by decide, rfl⟩

/-- A kernel without constants and scalars. -/
example : Clear [.node "decl" [.one (.id "a")]] ∧ Clear [] ∧
    (mainCode 60 ⟨[], [.node "decl" [.one (.id "a")]], [], [.node "for" [.one (.id "a")]], .node "dummy" [.one (.id "a")],
      .node "kernel" [.many [.id "a"]]⟩).map names = some ["a", "a", "a", "a", "a"] := by
  refine ⟨?_, ?_, rfl⟩ <;> intro n hn <;> simp [placeholders] at hn <;> rcases hn with rfl | rfl | rfl | rfl | rfl | rfl <;> decide

/-- C94 is false if nothing is inserted for neighbouring placeholders: every second one stays. -/
theorem C94_negation_skipped : visit "X" (.list []) 9 (block [.id "X", .id "X", stmt "a"]) =
    some (block [.id "X", stmt "a"]) := rfl

/-- C94 is false if inserted nodes contain the name: it is replaced again and again. -/
theorem C94_negation_endless (k : Nat) : visit "X" (.list [stmt "a", .id "X"]) k (block [.id "X"]) = none := by
  have h : ∀ k, visitItems "X" (.list [stmt "a", .id "X"]) k [.id "X"] = none := by
    intro k
    induction k with
    | zero => rfl
    | succ k ih =>
      simp only [visitItems, if_true, List.cons_append, List.nil_append]
      rw [ih]; rfl
  match k with
  | 0 => rfl
  | 1 => rfl
  | k + 2 => simp [visit, block, visitFields, h]

/-- C94 is false if a scalar of the kernel has the name of a placeholder: the call of `dummy` with its address gets the call
of the kernel as argument. -/
theorem C94_negation_name : mainCode 60 ⟨[], [], [.node "double" [.one (.id "KERNEL_CALL")]], [],
      .node "dummy" [.one (.id "KERNEL_CALL")], stmt "kernel(&KERNEL_CALL)"⟩ =
    some (program [] [] [.node "double" [.one (stmt "kernel(&KERNEL_CALL)")]] []
      [.node "dummy" [.one (stmt "kernel(&KERNEL_CALL)")]] [stmt "kernel(&KERNEL_CALL)"]) := rfl

end Verif.Replace
