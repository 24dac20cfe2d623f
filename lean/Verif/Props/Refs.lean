import Verif.Lemmas.Refs
import Verif.Props.Layout

/-!
C134: all references to arrays are analysed.
-/

namespace Verif.Refs

open Verif.Layout Verif.Iteration

open Classical in
/-- C134, partial: in every iteration, each reference to a declared array that moves with the loops is loaded from (stored to) exactly once, at the address of its element,
and nothing else. Missing: arrays that are not declared (`C134_negation_undeclared`); references need one subscript per dimension (`C134_negation_subscripts`). -/
theorem C134_simulated_partial (vars : List Arr) (hu : UniqueNames vars) (counters : List String) (loops : List Loop) (consts : String → Option Int)
    (sources dests : List Access) (hs : ∀ a ∈ sources ++ dests, ∀ v ∈ vars, a.arr = v.name → a.subs.length = v.dims.length) (spacing cl : Int) (iters : List Int)
    (res : List (List Int × List Int)) (h : compileGlobalOffsets vars counters loops consts sources dests spacing cl iters = .ok res) :
    List.Forall₂ (fun it (r : List Int × List Int) =>
      ∃ idx, globalIteratorToIndices loops it = some idx ∧
        (∃ as, as.Perm (sources.filter fun a => decide (a.arr ∈ vars.map (·.name) ∧ Varies counters a)) ∧
          List.Forall₂ (Address vars (baseOffsets spacing cl vars) (mkEnv counters idx consts)) as r.1) ∧
        (∃ as, as.Perm (dests.filter fun a => decide (a.arr ∈ vars.map (·.name) ∧ Varies counters a)) ∧
          List.Forall₂ (Address vars (baseOffsets spacing cl vars) (mkEnv counters idx consts)) as r.2))
      iters res := by
  unfold compileGlobalOffsets at h
  simp only [bind, Except.bind] at h
  split at h
  · simp at h
  split at h
  · simp at h
  rename_i loads hloads
  split at h
  · simp at h
  rename_i stores hstores
  clear * - h hloads hstores hu hs
  induction iters generalizing res with
  | nil => simp [pure, Except.pure] at h; subst h; exact .nil
  | cons it its ih =>
    rw [List.mapM_cons] at h
    simp only [bind, Except.bind] at h
    split at h
    · simp at h
    rename_i r hr
    split at h
    · simp at h
    rename_i rest hrest
    simp [pure, Except.pure] at h
    subst h
    refine .cons ?_ (ih rest hrest)
    split at hr
    · simp at hr
    rename_i l hl
    split at hr
    · simp at hr
    rename_i s hs'
    simp at hr
    subst hr
    obtain ⟨idx, hidx⟩ : ∃ idx, globalIteratorToIndices loops it = some idx := by
      unfold iterOffsets at hl
      split at hl
      · simp at hl
      · rename_i idx hidx; exact ⟨idx, hidx⟩
    exact ⟨idx, hidx,
      iterOffsets_all vars hu counters loops consts sources (fun a ha => hs a (List.mem_append_left _ ha)) spacing cl it loads hloads l hl idx hidx,
      iterOffsets_all vars hu counters loops consts dests (fun a ha => hs a (List.mem_append_right _ ha)) spacing cl it stores hstores s hs' idx hidx⟩

/-- C134: for layer conditions there is one expression for each reference of a declared variable with subscripts, whose value is the number of the element. -/
theorem C134_layer_conditions (sources destinations : List (String × List (Option (List Sym)))) (vars : List Var) (res : List (String × List Sym))
    (h : sympyAccesses sources destinations vars = .ok res) :
    List.Forall₂ (fun v r => r.1 = v.1 ∧ List.Forall₂ (fun a e => ∀ dims env vals, v.2 = some dims → a.length = dims.length →
      List.Forall₂ (fun s x => s.eval env = some x) a vals → e.eval env = some (rowMajor dims vals)) (refs sources destinations v.1) r.2) vars res := by
  rw [sympyAccesses_iff] at h
  refine h.imp fun v r ⟨h1, h2⟩ => ⟨h1, h2.imp fun a e hf dims env vals hv hl hx => ?_⟩
  unfold flat at hf
  rw [hv] at hf
  simp only [Except.ok.injEq] at hf
  subst hf
  rw [flattenSymFrom_of env dims 0 (.num 0) 0 a vals rfl hx, flattenFrom_eq _ _ _ _ (by rw [← hx.length_eq]; omega)]
  simp

/-- C134: the references are rejected exactly if a scalar has a subscript. -/
theorem C134_layer_conditions_accepted (sources destinations : List (String × List (Option (List Sym)))) (vars : List Var) :
    (∃ res, sympyAccesses sources destinations vars = .ok res) ↔ ∀ v ∈ vars, v.2 = none → ∀ a ∈ refs sources destinations v.1, a = [] := by
  simp only [sympyAccesses_iff]
  have hflat : ∀ (v : Var) (as : List (List Sym)), (∃ es, List.Forall₂ (fun a e => flat v a = .ok e) as es) ↔ (v.2 = none → ∀ a ∈ as, a = []) := by
    intro v as
    induction as with
    | nil => simp
    | cons a as ih =>
      have ha : (∃ e, flat v a = .ok e) ↔ (v.2 = none → a = []) := by
        unfold flat
        cases v.2 <;> cases a <;> simp
      simp only [List.forall₂_cons_left_iff, List.mem_cons, forall_eq_or_imp]
      constructor
      · rintro ⟨-, e, es, h1, h2, rfl⟩ hn
        exact ⟨ha.1 ⟨e, h1⟩ hn, ih.1 ⟨es, h2⟩ hn⟩
      · intro h
        obtain ⟨e, he⟩ := ha.2 fun hn => (h hn).1
        obtain ⟨es, hes⟩ := ih.2 fun hn => (h hn).2
        exact ⟨e :: es, e, es, he, hes, rfl⟩
  induction vars with
  | nil => simp
  | cons v vars ih =>
    simp only [← hflat] at ih
    simp only [List.forall₂_cons_left_iff, List.mem_cons, forall_eq_or_imp, ← hflat, ← ih]
    constructor
    · rintro ⟨-, r, res, ⟨-, h1⟩, h2, rfl⟩
      exact ⟨⟨_, h1⟩, res, h2⟩
    · rintro ⟨⟨es, h1⟩, res, h2⟩
      exact ⟨(v.1, es) :: res, (v.1, es), res, ⟨rfl, h1⟩, h2, rfl⟩

/-- C134, negation: references to an array that is not declared are left out without notice. -/
theorem C134_negation_undeclared :
    compileGlobalOffsets exVars ["j", "i"] exLoops (fun _ => none) (⟨"c", [.var "i"]⟩ :: exSrc) exDst 0 64 [0] = .ok [([64], [8])] ∧
    sympyAccesses [("c", [some [.var "i"]])] [] [("a", some [5])] = .ok [("a", [])] := by
  constructor
  · unfold compileGlobalOffsets; rw [exBases]; decide
  · decide

/-- C134, negation: a reference with more subscripts than dimensions is accepted, and the address is that of another element. -/
theorem C134_negation_subscripts :
    compileGlobalOffsets exVars ["j", "i"] exLoops (fun _ => none) [] [⟨"a", [.var "j", .var "i"]⟩] 0 64 [1] = .ok [([], [16])] := by
  unfold compileGlobalOffsets; rw [exBases]; decide

example : (∀ a ∈ exSrc ++ exDst, ∀ v ∈ exVars, a.arr = v.name → a.subs.length = v.dims.length) ∧ Varies ["j", "i"] ⟨"b", [.sub (.var "j") (.num 1), .var "i"]⟩ ∧
    ¬Varies ["j", "i"] ⟨"b", [.num 1, .var "N"]⟩ := by
  refine ⟨by decide, ⟨"j", by decide, _, List.mem_cons_self, by decide⟩, ?_⟩
  simp [Varies, Sym.free]

example : sympyAccesses [("b", [some [.var "j", .var "i"], some [.sub (.var "j") (.num 1), .var "i"]]), ("s", [none])] [("a", [some [.var "i"]])]
    [("b", some [3, 4]), ("s", none), ("a", some [5])] ≠ .ok [] := by decide

end Verif.Refs
