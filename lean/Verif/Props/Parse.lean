import Verif.Lemmas.Grammar

/-!
C45, C55 and C66: sections of kernel code, operation counts and recorded references.
-/

namespace Verif.Parse

open Verif.Text Verif.CSem

/-! ### C55 -/

def IsDecl (s : Stmt) : Prop := ∃ n t, s = .decl n t

def IsSwap (s : Stmt) : Prop := s = .call (some "swap")

theorem sections_swaps (items : List Stmt) (acc secs : Sections) :
    sections items .swaps acc = .ok secs ↔ (∀ s ∈ items, IsSwap s) ∧ secs = { acc with swaps := acc.swaps ++ items } := by
  induction items generalizing acc with
  | nil =>
    simp only [sections, Except.ok.injEq, List.not_mem_nil, false_imp_iff, implies_true, List.append_nil, true_and]
    exact ⟨fun h => h.symm, fun h => h.symm⟩
  | cons s rest ih =>
    unfold sections
    constructor
    · intro h
      obtain ⟨⟨sec, acc'⟩, h1, h2⟩ := bind_ok h
      have : IsSwap s ∧ sec = .swaps ∧ acc' = { acc with swaps := acc.swaps ++ [s] } := by
        unfold sectionStep at h1
        simp only at h1
        split at h1
        · split at h1
          · rename_i hn
            subst hn
            simp only [Except.ok.injEq, Prod.mk.injEq] at h1
            exact ⟨rfl, h1.1.symm, h1.2.symm⟩
          · cases h1
        · cases h1
        · cases h1
      obtain ⟨hs, rfl, rfl⟩ := this
      obtain ⟨h3, h4⟩ := (ih _).mp h2
      refine ⟨fun x hx => ?_, ?_⟩
      · rcases List.mem_cons.mp hx with rfl | hx
        · exact hs
        · exact h3 x hx
      · rw [h4]
        simp
    · rintro ⟨h1, h2⟩
      have hs := h1 s (by simp)
      unfold IsSwap at hs
      subst hs
      have := (ih { acc with swaps := acc.swaps ++ [.call (some "swap")] }).mpr
        ⟨fun x hx => h1 x (by simp [hx]), by rw [h2]; simp⟩
      simpa [sectionStep, bind, Except.bind] using this

/-- What the sections of accepted code are. -/
theorem sections_sound (items : List Stmt) (sec : Section) (hsec : sec ≠ .swaps) (acc secs : Sections)
    (h : sections items sec acc = .ok secs) :
    ∃ ds ps, (∀ d ∈ ds, IsDecl d) ∧ (∀ p ∈ ps, p = .pragma) ∧ (sec = .loopnest → ds = []) ∧
      ((items = ds ++ ps ∧ secs = { acc with decls := acc.decls ++ ds, nest := acc.nest ++ ps }) ∨
        ∃ h b ss, items = ds ++ ps ++ [.loop h b] ++ ss ∧ (∀ s ∈ ss, IsSwap s) ∧
          secs = ⟨acc.decls ++ ds, acc.nest ++ ps ++ [.loop h b], acc.swaps ++ ss⟩) := by
  induction items generalizing sec acc with
  | nil =>
    simp only [sections, Except.ok.injEq] at h
    exact ⟨[], [], by simp, by simp, fun _ => rfl, Or.inl ⟨rfl, by simp [← h]⟩⟩
  | cons s rest ih =>
    unfold sections at h
    obtain ⟨⟨sec', acc'⟩, h1, h2⟩ := bind_ok h
    simp only at h2
    by_cases hd : sec = .declarations ∧ IsDecl s
    · obtain ⟨rfl, n, t, rfl⟩ := hd
      simp only [sectionStep, Except.ok.injEq, Prod.mk.injEq] at h1
      obtain ⟨rfl, rfl⟩ := h1
      obtain ⟨ds, ps, g1, g2, _, g4⟩ := ih .declarations (by simp) _ h2
      refine ⟨.decl n t :: ds, ps, ?_, g2, by simp, ?_⟩
      · intro d hd
        rcases List.mem_cons.mp hd with rfl | hd
        · exact ⟨n, t, rfl⟩
        · exact g1 d hd
      · rcases g4 with ⟨rfl, g5⟩ | ⟨hh, b, ss, rfl, g5, g6⟩
        · exact Or.inl ⟨rfl, by simp [g5]⟩
        · exact Or.inr ⟨hh, b, ss, rfl, g5, by simp [g6]⟩
    · -- the statement belongs to the loop nest
      have hn : (s = .pragma ∧ sec' = .loopnest ∧ acc' = { acc with nest := acc.nest ++ [s] }) ∨
          (∃ hh b, s = .loop hh b) ∧ sec' = .swaps ∧ acc' = { acc with nest := acc.nest ++ [s] } := by
        cases sec with
        | swaps => exact absurd rfl hsec
        | declarations =>
          cases s <;> first
            | exact absurd ⟨rfl, _, _, rfl⟩ hd
            | (simp only [sectionStep, Except.ok.injEq, Prod.mk.injEq, reduceCtorEq] at h1)
          · exact Or.inr ⟨⟨_, _, rfl⟩, h1.1.symm, h1.2.symm⟩
          · exact Or.inl ⟨rfl, h1.1.symm, h1.2.symm⟩
        | loopnest =>
          cases s <;> simp only [sectionStep, Except.ok.injEq, Prod.mk.injEq, reduceCtorEq] at h1
          · exact Or.inr ⟨⟨_, _, rfl⟩, h1.1.symm, h1.2.symm⟩
          · exact Or.inl ⟨rfl, h1.1.symm, h1.2.symm⟩
      rcases hn with ⟨rfl, rfl, rfl⟩ | ⟨⟨hh, b, rfl⟩, rfl, rfl⟩
      · obtain ⟨ds, ps, _, g2, g3, g4⟩ := ih .loopnest (by simp) _ h2
        have := g3 rfl
        subst this
        refine ⟨[], .pragma :: ps, by simp, ?_, by simp, ?_⟩
        · intro p hp
          rcases List.mem_cons.mp hp with rfl | hp
          · rfl
          · exact g2 p hp
        · rcases g4 with ⟨rfl, g5⟩ | ⟨hh, b, ss, rfl, g5, g6⟩
          · exact Or.inl ⟨rfl, by simp [g5]⟩
          · exact Or.inr ⟨hh, b, ss, rfl, g5, by simp [g6]⟩
      · obtain ⟨g1, g2⟩ := (sections_swaps rest _ secs).mp h2
        exact ⟨[], [], by simp, by simp, by simp, Or.inr ⟨hh, b, rest, rfl, g1, by simp [g2]⟩⟩

theorem sections_nest (ps : List Stmt) (hp : ∀ p ∈ ps, p = .pragma) (h : Header) (b : Stmt) (ss : List Stmt)
    (hs : ∀ s ∈ ss, IsSwap s) (sec : Section) (hsec : sec ≠ .swaps) (acc : Sections) :
    sections (ps ++ [.loop h b] ++ ss) sec acc =
      .ok ⟨acc.decls, acc.nest ++ ps ++ [.loop h b], acc.swaps ++ ss⟩ := by
  induction ps generalizing sec acc with
  | nil =>
    have h1 : sectionStep sec acc (.loop h b) = .ok (.swaps, { acc with nest := acc.nest ++ [.loop h b] }) := by
      cases sec with
      | swaps => exact absurd rfl hsec
      | declarations => rfl
      | loopnest => rfl
    simp only [List.nil_append, List.cons_append, sections]
    rw [h1]
    have := (sections_swaps ss { acc with nest := acc.nest ++ [.loop h b] } _).mpr ⟨hs, rfl⟩
    simpa [bind, Except.bind] using this
  | cons p ps ih =>
    have := hp p (by simp)
    subst this
    have h1 : sectionStep sec acc .pragma = .ok (.loopnest, { acc with nest := acc.nest ++ [.pragma] }) := by
      cases sec with
      | swaps => exact absurd rfl hsec
      | declarations => rfl
      | loopnest => rfl
    simp only [List.cons_append, sections]
    rw [h1]
    have := ih (fun p hp' => hp p (by simp [hp'])) .loopnest (by simp) { acc with nest := acc.nest ++ [.pragma] }
    simpa [bind, Except.bind] using this

theorem sections_complete (ds ps : List Stmt) (hd : ∀ d ∈ ds, IsDecl d) (hp : ∀ p ∈ ps, p = .pragma) (h : Header) (b : Stmt)
    (ss : List Stmt) (hs : ∀ s ∈ ss, IsSwap s) (acc : Sections) :
    sections (ds ++ ps ++ [.loop h b] ++ ss) .declarations acc =
      .ok ⟨acc.decls ++ ds, acc.nest ++ ps ++ [.loop h b], acc.swaps ++ ss⟩ := by
  induction ds generalizing acc with
  | nil =>
    have := sections_nest ps hp h b ss hs .declarations (by simp) acc
    simpa using this
  | cons d ds ih =>
    obtain ⟨n, t, rfl⟩ := hd d (by simp)
    have := ih (fun d hd' => hd d (by simp [hd'])) { acc with decls := acc.decls ++ [.decl n t] }
    simpa [sections, sectionStep, bind, Except.bind] using this

theorem arrayType_iff (ty : TypeAst) (t : List String) :
    (∃ ds, arrayType ty = .ok (ds, t)) ↔ DeclType t ty := by
  induction ty with
  | base names =>
    constructor
    · rintro ⟨ds, h⟩
      simp only [arrayType, Except.ok.injEq, Prod.mk.injEq] at h
      rw [h.2]
      exact .base
    · intro h
      cases h
      exact ⟨[], rfl⟩
  | other =>
    constructor
    · rintro ⟨ds, h⟩; cases h
    · intro h; cases h
  | array dim elem ih =>
    constructor
    · rintro ⟨ds, h⟩
      unfold arrayType at h
      cases dim with
      | none => cases h
      | some e =>
        obtain ⟨d, h1, h2⟩ := bind_ok h
        obtain ⟨⟨ds', t'⟩, h3, h4⟩ := bind_ok h2
        simp only [Except.ok.injEq, Prod.mk.injEq] at h4
        obtain ⟨_, rfl⟩ := h4
        exact .array e elem ((conv_iff e).mp ⟨d, h1⟩) (ih.mp ⟨ds', h3⟩)
    · intro h
      cases h with
      | array e _ he hel =>
        obtain ⟨d, hd⟩ := (conv_iff e).mpr he
        obtain ⟨ds, hds⟩ := ih.mpr hel
        exact ⟨d :: ds, by simp [arrayType, hd, hds, bind, Except.bind]⟩

theorem pDecl_iff (ty : TypeAst) (t : List String) : (∃ size, pDecl ty = .ok (t, size)) ↔ DeclType t ty := by
  cases ty with
  | base names =>
    constructor
    · rintro ⟨size, h⟩
      simp only [pDecl, Except.ok.injEq, Prod.mk.injEq] at h
      rw [h.1]
      exact .base
    · intro h
      cases h
      exact ⟨none, rfl⟩
  | other =>
    constructor
    · rintro ⟨ds, h⟩; cases h
    · intro h; cases h
  | array dim elem =>
    rw [← arrayType_iff]
    constructor
    · rintro ⟨size, h⟩
      unfold pDecl at h
      obtain ⟨⟨ds, t'⟩, h1, h2⟩ := bind_ok h
      simp only [Except.ok.injEq, Prod.mk.injEq] at h2
      exact ⟨ds, by rw [h1, h2.1]⟩
    · rintro ⟨ds, h⟩
      exact ⟨some ds, by simp [pDecl, h, bind, Except.bind]⟩

/-- The types of the declarations. -/
def datatypes : List (List String) := [["double", "_Complex"], ["float", "_Complex"], ["double"], ["float"]]

theorem isDatatype_iff (t : List String) : isDatatype t = true ↔ t ∈ datatypes := by
  unfold isDatatype datatypes
  simp

theorem setVariable_ok (v : Vars) (name : String) (t : List String) (size : Option (List Sym)) :
    Ok (setVariable v name t size) ↔ t ∈ datatypes ∧ (v.datatype = none ∨ v.datatype = some t) := by
  unfold setVariable
  rw [← isDatatype_iff]
  cases h : isDatatype t with
  | false => simp only [Bool.not_false, if_true]; exact ⟨fun h => absurd h (not_ok_error _), fun h => by simp at h⟩
  | true =>
    simp only [Bool.not_true, Bool.false_eq_true, if_false, true_and]
    cases hd : v.datatype with
    | none => exact ⟨fun _ => Or.inl rfl, fun _ => ok_ok _⟩
    | some t' =>
      by_cases ht : t = t'
      · simp only [ht, if_true]
        exact ⟨fun _ => Or.inr trivial, fun _ => ok_ok _⟩
      · simp only [ht, if_false]
        refine ⟨fun h => absurd h (not_ok_error _), fun h => ?_⟩
        rcases h with h | h
        · cases h
        · exact absurd (Option.some.inj h).symm ht

theorem setVariable_datatype (v v' : Vars) (name : String) (t : List String) (size : Option (List Sym))
    (h : setVariable v name t size = .ok v') : v'.datatype = some t := by
  unfold setVariable at h
  split at h
  · cases h
  · simp only at h
    split at h
    · simp only [Except.ok.injEq] at h
      rw [← h]
    · split at h
      · rename_i ht
        simp only [Except.ok.injEq] at h
        rw [← h, ht]
      · cases h

theorem pDecls_iff (ds : List (String × TypeAst)) (v : Vars) (hv : ∀ t, v.datatype = some t → t ∈ datatypes) :
    Ok (pDecls (ds.map fun d => .decl d.1 d.2) v) ↔
      ∃ t ∈ datatypes, (v.datatype = none ∨ v.datatype = some t) ∧ ∀ d ∈ ds, DeclType t d.2 := by
  induction ds generalizing v with
  | nil =>
    refine ⟨fun _ => ?_, fun _ => ok_ok _⟩
    cases hd : v.datatype with
    | none => exact ⟨["double"], by simp [datatypes], Or.inl rfl, by simp⟩
    | some t => exact ⟨t, hv t hd, Or.inr rfl, by simp⟩
  | cons d ds ih =>
    obtain ⟨name, ty⟩ := d
    simp only [List.map_cons, pDecls]
    constructor
    · intro h
      rw [ok_bind] at h
      obtain ⟨⟨t, size⟩, h1, h⟩ := h
      simp only at h
      rw [ok_bind] at h
      obtain ⟨v', h2, h⟩ := h
      obtain ⟨ht, hvt⟩ := (setVariable_ok v name t size).mp ⟨v', h2⟩
      have hv' := setVariable_datatype _ _ _ _ _ h2
      obtain ⟨t', _, h3, h4⟩ := (ih v' (fun x hx => by rw [hv'] at hx; cases hx; exact ht)).mp h
      have : t' = t := by
        rcases h3 with h3 | h3
        · rw [hv'] at h3; cases h3
        · rw [hv'] at h3; exact (Option.some.inj h3).symm
      subst this
      refine ⟨t', ht, hvt, fun d hd => ?_⟩
      rcases List.mem_cons.mp hd with rfl | hd
      · exact (pDecl_iff ty t').mp ⟨size, h1⟩
      · exact h4 d hd
    · rintro ⟨t, ht, hvt, hall⟩
      obtain ⟨size, h1⟩ := (pDecl_iff ty t).mpr (hall (name, ty) (by simp))
      rw [ok_bind]
      refine ⟨(t, size), h1, ?_⟩
      simp only
      rw [ok_bind]
      obtain ⟨v', h2⟩ := (setVariable_ok v name t size).mpr ⟨ht, hvt⟩
      have hv' := setVariable_datatype _ _ _ _ _ h2
      exact ⟨v', h2, (ih v' (fun x hx => by rw [hv'] at hx; cases hx; exact ht)).mpr
        ⟨t, ht, Or.inr hv', fun d hd => hall d (by simp [hd])⟩⟩

theorem decls_form (ds : List Stmt) (h : ∀ d ∈ ds, IsDecl d) :
    ∃ l : List (String × TypeAst), ds = l.map fun d => .decl d.1 d.2 := by
  induction ds with
  | nil => exact ⟨[], rfl⟩
  | cons d ds ih =>
    obtain ⟨n, t, rfl⟩ := h d (by simp)
    obtain ⟨l, rfl⟩ := ih fun d hd => h d (by simp [hd])
    exact ⟨(n, t) :: l, rfl⟩

/-- What `_process_code` has done with accepted code. -/
theorem processCode_ok (items : List Stmt) (r : Result) (h : processCode items = .ok r) :
    ∃ (ds : List (String × TypeAst)) (ps : List Stmt) (hd : Header) (b : Stmt) (ss : List Stmt),
      items = ds.map (fun d => .decl d.1 d.2) ++ ps ++ [.loop hd b] ++ ss ∧ (∀ p ∈ ps, p = .pragma) ∧ (∀ s ∈ ss, IsSwap s) ∧
      pDecls (ds.map fun d => .decl d.1 d.2) ⟨none, []⟩ = .ok r.vars ∧
      pFor (.loop hd b) ⟨[], ⟨[], [], fun _ => none⟩⟩ = .ok r.st ∧ r.swaps = ss := by
  unfold processCode at h
  split at h
  · cases h
  · obtain ⟨secs, h1, h2⟩ := bind_ok h
    obtain ⟨vars, h3, h4⟩ := bind_ok h2
    obtain ⟨ds, ps, g1, g2, _, g4⟩ := sections_sound items .declarations (by simp) _ secs h1
    obtain ⟨l, rfl⟩ := decls_form ds g1
    rcases g4 with ⟨rfl, rfl⟩ | ⟨hd, b, ss, rfl, g5, rfl⟩
    · exfalso
      simp only [List.nil_append] at h4
      split at h4
      · cases h4
      · rename_i nest hnest
        have := g2 nest (List.mem_of_getLast? hnest)
        subst this
        cases h4
    · simp only [List.nil_append] at h3 h4
      rw [List.getLast?_concat] at h4
      obtain ⟨st, h5, h6⟩ := bind_ok h4
      simp only [Except.ok.injEq] at h6
      subst h6
      exact ⟨l, ps, hd, b, ss, rfl, g2, g5, h3, h5, rfl⟩

/-- C55: code is accepted if and only if it matches the grammar of kernels: declarations of variables of one common
type, one loop nest after pragmas, calls of `swap`. -/
theorem C55_accepted_iff_grammar (items : List Stmt) : (∃ r, processCode items = .ok r) ↔ Kernel items := by
  constructor
  · rintro ⟨r, h⟩
    obtain ⟨ds, ps, hd, b, ss, rfl, h1, h2, h3, h4, _⟩ := processCode_ok items r h
    obtain ⟨t, ht, _, hall⟩ := (pDecls_iff ds ⟨none, []⟩ (by simp)).mp ⟨_, h3⟩
    exact .mk t ds ps hd b ss ht hall h1 ((pFor_iff _ _).mp ⟨_, h4⟩) h2
  · intro h
    cases h with
    | mk t ds ps hd b ss ht hall hp hn hs =>
      obtain ⟨vars, h1⟩ := (pDecls_iff ds ⟨none, []⟩ (by simp)).mpr ⟨t, ht, Or.inl rfl, hall⟩
      obtain ⟨st, h2⟩ := (pFor_iff (.loop hd b) ⟨[], ⟨[], [], fun _ => none⟩⟩).mpr hn
      have h3 := sections_complete (ds.map fun d => .decl d.1 d.2) ps
        (by
          intro d hd
          obtain ⟨x, _, rfl⟩ := List.mem_map.mp hd
          exact ⟨_, _, rfl⟩) hp hd b ss hs ⟨[], [], []⟩
      refine ⟨⟨vars, st, ss⟩, ?_⟩
      unfold processCode
      rw [if_neg (by simp), h3]
      simp [bind, Except.bind, h1, h2]

/-! ### C45 -/

/-- Operators whose count is wrong. -/
def stepOps : List String := ["++", "--", "p++", "p--"]

theorem pSources_flops (e : Expr) (b b' : Body) (h : pSources e b = .ok b') (op : String) (hop : op ∉ stepOps) :
    getFlop b'.flops op = getFlop b.flops op + (ops e).count op := by
  induction e generalizing b b' with
  | id n =>
    unfold pSources addSource at h
    obtain ⟨_, _, h⟩ := bind_ok h
    obtain ⟨_, _, h⟩ := bind_ok h
    simp only [Except.ok.injEq] at h
    subst h
    simp [ops]
  | ref a s _ _ =>
    unfold pSources addSource at h
    obtain ⟨_, _, h⟩ := bind_ok h
    obtain ⟨_, _, h⟩ := bind_ok h
    simp only [Except.ok.injEq] at h
    subst h
    simp [ops]
  | const t =>
    simp only [pSources, Except.ok.injEq] at h
    subst h
    simp [ops]
  | other => cases h
  | bin o l r ihl ihr =>
    unfold pSources at h
    obtain ⟨b1, h1, h⟩ := bind_ok h
    obtain ⟨b2, h2, h⟩ := bind_ok h
    simp only [Except.ok.injEq] at h
    subst h
    have e1 := ihl b b1 h1
    have e2 := ihr b1 b2 h2
    simp only [ops, List.count_cons, List.count_append]
    by_cases ho : op = o
    · subst ho
      simp only [getFlop, setFlop, if_true, Option.getD_some, beq_self_eq_true] at *
      omega
    · have : ¬ o = op := fun e => ho e.symm
      simp only [getFlop, setFlop, ho, if_false, this, beq_iff_eq] at *
      omega
  | un o e ih =>
    unfold pSources at h
    split at h
    · cases h
    · rename_i hun
      obtain ⟨b1, h1, h⟩ := bind_ok h
      simp only [Except.ok.injEq] at h
      subst h
      have e1 := ih b b1 h1
      simp only [ops, List.count_cons]
      by_cases ho : op = o
      · subst ho
        have hm : op = "-" := by
          have : op ∈ unaryOps := by simpa using hun
          simp only [unaryOps, stepOps, List.mem_cons, List.not_mem_nil, or_false] at this hop
          tauto
        have hl : lastChar op = op := by subst hm; decide
        simp only [getFlop, setFlop, if_true, Option.getD_some, beq_self_eq_true, hl] at *
        omega
      · have : ¬ o = op := fun e => ho e.symm
        simp only [getFlop, setFlop, ho, if_false, this, beq_iff_eq] at *
        omega

theorem stripEq_assign (op : String) (h : op ∈ assignOps.map Prod.fst) (hne : op ≠ "=") :
    assignOps.lookup op = some [stripEq op] := by
  simp only [assignOps, List.map_cons, List.map_nil, List.mem_cons, List.not_mem_nil, or_false] at h
  rcases h with rfl | rfl | rfl | rfl | rfl | rfl | rfl | rfl | rfl | rfl | rfl
  · exact absurd rfl hne
  all_goals decide +kernel

theorem pAssignment_flops (o : String) (lv rv : Expr) (ho : o ∈ assignOps.map Prod.fst) (b b' : Body)
    (h : pAssignment o lv rv b = .ok b') (op : String) (hop : op ∉ stepOps) :
    getFlop b'.flops op = getFlop b.flops op + (assignmentOps (o, lv, rv)).count op := by
  unfold pAssignment at h
  split at h
  · cases h
  · obtain ⟨n, _, h⟩ := bind_ok h
    obtain ⟨offs, _, h⟩ := bind_ok h
    have := pSources_flops rv _ b' h op hop
    rw [this]
    unfold assignmentOps
    by_cases he : o = "="
    · subst he
      have : assignOps.lookup "=" = some [] := by decide +kernel
      simp [this]
    · rw [stripEq_assign o ho he]
      simp only [ne_eq, he, not_false_iff, if_true, Option.getD_some, List.singleton_append, List.count_cons, beq_iff_eq]
      by_cases hs : op = stripEq o
      · simp only [getFlop, setFlop, hs, if_true, Option.getD_some]
        omega
      · have : ¬ stripEq o = op := fun e => hs e.symm
        simp only [getFlop, setFlop, hs, if_false, this]
        omega

theorem pAll_flops (as : List (String × Expr × Expr)) (ho : ∀ a ∈ as, a.1 ∈ assignOps.map Prod.fst) (b b' : Body)
    (h : pAll as b = .ok b') (op : String) (hop : op ∉ stepOps) :
    getFlop b'.flops op = getFlop b.flops op + (as.flatMap assignmentOps).count op := by
  induction as generalizing b with
  | nil =>
    simp only [pAll, Except.ok.injEq] at h
    subst h
    simp
  | cons a as ih =>
    obtain ⟨o, lv, rv⟩ := a
    unfold pAll at h
    obtain ⟨b1, h1, h2⟩ := bind_ok h
    have e1 := pAssignment_flops o lv rv (ho (o, lv, rv) (by simp)) b b1 h1 op hop
    have e2 := ih (fun a ha => ho a (by simp [ha])) b1 h2
    simp only [List.flatMap_cons, List.count_append]
    omega

/-- The assignments of the code, wherever they are. -/
def kernelAssigns (items : List Stmt) : List (String × Expr × Expr) := assignsList items

theorem assignsList_append (a b : List Stmt) : assignsList (a ++ b) = assignsList a ++ assignsList b := by
  induction a with
  | nil => simp [assignsList]
  | cons x a ih => simp [assignsList, ih]

theorem assignsList_none (l : List Stmt) (h : ∀ s ∈ l, assigns s = []) : assignsList l = [] := by
  induction l with
  | nil => simp [assignsList]
  | cons x l ih => simp [assignsList, h x (by simp), ih fun s hs => h s (by simp [hs])]

/-- All assignments of accepted code were recorded. -/
theorem processCode_body (items : List Stmt) (r : Result) (h : processCode items = .ok r) :
    pAll (kernelAssigns items) ⟨[], [], fun _ => none⟩ = .ok r.st.body := by
  obtain ⟨ds, ps, hd, b, ss, rfl, h1, h2, _, h4, _⟩ := processCode_ok items r h
  have := pBody_assigns (.loop hd b) ⟨[], ⟨[], [], fun _ => none⟩⟩ r.st h4
  unfold kernelAssigns
  rw [assignsList_append, assignsList_append, assignsList_append]
  rw [assignsList_none (ds.map fun d => .decl d.1 d.2), assignsList_none ps, assignsList_none ss]
  · simpa [assignsList] using this
  · intro s hs
    rw [h2 s hs]
    simp [assigns]
  · intro s hs
    rw [h1 s hs]
    simp [assigns]
  · intro s hs
    obtain ⟨x, _, rfl⟩ := List.mem_map.mp hs
    simp [assigns]

/-- C45, partial: in accepted code the count of every operator except `++` and `--` (in front or behind) is the number
of its occurrences. Missing: `++` and `--`, see `C45_negation`. -/
theorem C45_flop_counts_partial (items : List Stmt) (r : Result) (h : processCode items = .ok r)
    (ho : ∀ a ∈ kernelAssigns items, a.1 ∈ assignOps.map Prod.fst) (op : String) (hop : op ∉ ["++", "--", "p++", "p--"]) :
    getFlop r.st.body.flops op = ((kernelAssigns items).flatMap assignmentOps).count op := by
  have := pAll_flops _ ho _ _ (processCode_body items r h) op hop
  rw [this]
  simp [getFlop]

/-- `for (int i = 0; i < N; ++i) …` -/
def simpleHead : Header :=
  ⟨.decls [("i", ["int"], some (.const ['0']))], some (.bin "<" (.id "i") (.id "N")), .un "++" (.id "i")⟩

/-- `double a[N]; double s; for (int i = 0; i < N; ++i) { a[i+1] += -s * 2.0 + s * a[i]; }` -/
def goodKernel : List Stmt :=
  [.decl "a" (.array (some (.id "N")) (.base ["double"])), .decl "s" (.base ["double"]),
    .loop simpleHead (.compound [.assign "+=" (.ref (.id "a") (.bin "+" (.id "i") (.const ['1'])))
      (.bin "+" (.bin "*" (.un "-" (.id "s")) (.const "2.0".toList)) (.bin "*" (.id "s") (.ref (.id "a") (.id "i"))))])]

/-- It is accepted, with two additions, two multiplications and one negation. -/
example : (processCode goodKernel).toOption.map (fun r => (r.st.loops, getFlop r.st.body.flops "+",
    getFlop r.st.body.flops "*", getFlop r.st.body.flops "-", r.swaps.length)) =
      some ([⟨"i", .int 0, .sym "N", 1⟩], 2, 2, 1, 0) ∧
    ∀ a ∈ kernelAssigns goodKernel, a.1 ∈ assignOps.map Prod.fst := by
  exact ⟨by decide +kernel, by decide +kernel⟩

/-- `double s; double t; for (…) t = s++ + s++;` -/
def stepKernel : List Stmt :=
  [.decl "s" (.base ["double"]), .decl "t" (.base ["double"]),
    .loop simpleHead (.assign "=" (.id "t") (.bin "+" (.un "p++" (.id "s")) (.un "p++" (.id "s"))))]

/-- C45, what is counted for `++` and `--`: an occurrence sets the count to one more than that of `+` or `-` up to there. -/
theorem C45_steps (op sign : String) (hop : (op, sign) ∈ [("++", "+"), ("p++", "+"), ("--", "-"), ("p--", "-")]) (e : Expr) (b b' : Body)
    (h : pSources (.un op e) b = .ok b') : getFlop b'.flops op = getFlop b.flops sign + (ops e).count sign + 1 := by
  have hs : sign ∉ stepOps ∧ lastChar op = sign := by
    simp only [List.mem_cons, Prod.mk.injEq, List.not_mem_nil, or_false] at hop
    rcases hop with ⟨rfl, rfl⟩ | ⟨rfl, rfl⟩ | ⟨rfl, rfl⟩ | ⟨rfl, rfl⟩ <;> decide +kernel
  unfold pSources at h
  split at h
  · simp at h
  · obtain ⟨b1, h1, h⟩ := bind_ok h
    simp only [Except.ok.injEq] at h
    subst h
    have := pSources_flops e b b1 h1 sign hs.1
    simp only [hs.2]
    rw [← this]
    simp [getFlop, setFlop]

/-- `(s + t + s)++` with three additions before: six are counted for `p++`. -/
example : (pSources (.un "p++" (.bin "+" (.bin "+" (.id "s") (.id "t")) (.id "s"))) ⟨[], [], setFlop (fun _ => none) "+" 3⟩).toOption.map
    (fun b => getFlop b.flops "p++") = some 6 := by decide +kernel

/-- C45 does not hold for `++`: two occurrences are counted as one. -/
theorem C45_negation : (processCode stepKernel).toOption.map (fun r => getFlop r.st.body.flops "p++") = some 1 ∧
    ((kernelAssigns stepKernel).flatMap assignmentOps).count "p++" = 2 := by
  exact ⟨by decide +kernel, by decide +kernel⟩

end Verif.Parse
