import Verif.Model.Refs
import Verif.Spec.Refs
import Verif.Lemmas.Layout

/-!
Lemmas on the references analysed.
-/

namespace Verif.Refs

open Verif.Layout Verif.Iteration

/-- Pairs of a variable and its accesses. -/
def pairs (vars : List Arr) (accs : List Access) : List (Arr × Access) :=
  vars.flatMap (fun v => (accs.filter (fun a => a.arr == v.name)).map (fun a => (v, a)))

theorem pairs_perm (vars : List Arr) (accs : List Access) (hn : (vars.map (·.name)).Nodup) :
    ((pairs vars accs).map (·.2)).Perm (accs.filter fun a => decide (a.arr ∈ vars.map (·.name))) := by
  induction vars with
  | nil => simp [pairs]
  | cons v vs ih =>
    rw [List.map_cons, List.nodup_cons] at hn
    have h1 : (pairs (v :: vs) accs).map (·.2) = accs.filter (fun a => a.arr == v.name) ++ (pairs vs accs).map (·.2) := by
      simp [pairs, Function.comp_def]
    rw [h1]
    refine ((ih hn.2).append_left _).trans ?_
    refine List.Perm.trans ?_ (List.filter_append_perm (fun a => a.arr == v.name) _)
    rw [List.filter_filter, List.filter_filter]
    refine List.Perm.append (List.Perm.of_eq ?_) (List.Perm.of_eq ?_)
    · apply List.filter_congr
      intro a _
      by_cases h : a.arr = v.name <;> simp [h]
    · apply List.filter_congr
      intro a _
      by_cases h : a.arr = v.name
      · simp only [h, beq_self_eq_true, Bool.not_true, Bool.false_and, decide_eq_false_iff_not]
        exact hn.1
      · simp [h]

theorem mem_pairs {vars : List Arr} {accs : List Access} {p : Arr × Access} (h : p ∈ pairs vars accs) : p.1 ∈ vars ∧ p.2 ∈ accs ∧ p.2.arr = p.1.name := by
  simp only [pairs, List.mem_flatMap, List.mem_map, List.mem_filter, beq_iff_eq] at h
  obtain ⟨v, hv, a, ⟨ha, he⟩, rfl⟩ := h
  exact ⟨hv, ha, he⟩

theorem free_flatten (dims : List Int) (d : Nat) (acc : Sym) (as : List Sym) (s : String) :
    s ∈ (flattenSymFrom dims d acc as).free ↔ s ∈ acc.free ∨ ∃ a ∈ as, s ∈ a.free := by
  induction as generalizing d acc with
  | nil => simp [flattenSymFrom]
  | cons a as ih =>
    rw [flattenSymFrom, ih]
    simp only [Sym.free, List.mem_append, List.not_mem_nil, false_or, List.mem_cons, exists_eq_or_imp, or_assoc]

theorem varies_iff (counters : List String) (v : Arr) (a : Access) :
    (flattenSymFrom v.dims 0 (.num 0) a.subs).free.any (fun s => counters.contains s) = true ↔ Varies counters a := by
  simp only [List.any_eq_true, free_flatten, Sym.free, List.not_mem_nil, false_or, List.contains_iff_mem, Varies]
  constructor
  · rintro ⟨s, ⟨e, he, hs⟩, hc⟩
    exact ⟨s, hc, e, he, hs⟩
  · rintro ⟨s, hc, e, he, hs⟩
    exact ⟨s, ⟨e, he, hs⟩, hc⟩

open Classical in
theorem offsetExprs_all (vars : List Arr) (bases : List (String × Int)) (counters : List String) (accs : List Access) (hn : (vars.map (·.name)).Nodup)
    (es : List Sym) (h : offsetExprs vars bases counters accs = .ok es) :
    ∃ ps : List (Arr × Access), (ps.map (·.2)).Perm (accs.filter fun a => decide (a.arr ∈ vars.map (·.name) ∧ Varies counters a)) ∧
      List.Forall₂ (fun p e => p.1 ∈ vars ∧ p.2.arr = p.1.name ∧ ∃ b, bases.lookup p.1.name = some b ∧
        e = .add (.mul (flattenSymFrom p.1.dims 0 (.num 0) p.2.subs) (.num p.1.elem)) (.num b)) ps es := by
  refine ⟨(pairs vars accs).filter (fun p => decide (Varies counters p.2)), ?_, ?_⟩
  · have h1 : ((pairs vars accs).filter (fun p => decide (Varies counters p.2))).map (·.2) =
        ((pairs vars accs).map (·.2)).filter (fun a => decide (Varies counters a)) := by
      rw [List.filter_map]
      rfl
    rw [h1]
    refine ((pairs_perm vars accs hn).filter _).trans (List.Perm.of_eq ?_)
    rw [List.filter_filter]
    apply List.filter_congr
    intro a _
    simp [and_comm]
  · change (pairs vars accs).foldrM _ [] = _ at h
    have hsub : ∀ p ∈ pairs vars accs, p.1 ∈ vars ∧ p.2 ∈ accs ∧ p.2.arr = p.1.name := fun p hp => mem_pairs hp
    revert h hsub
    generalize pairs vars accs = l
    induction l generalizing es with
    | nil =>
      intro h _
      simp [pure, Except.pure] at h
      subst h
      exact .nil
    | cons p l ih =>
      intro h hsub
      rw [List.foldrM_cons] at h
      simp only [bind, Except.bind] at h
      split at h
      · simp at h
      · rename_i rest hrest
        obtain ⟨h1, h2, h3⟩ := hsub p (by simp)
        have ih' := ih rest hrest (fun x hx => hsub x (by simp [hx]))
        simp only [accessToSympy, find_unique vars hn _ h1] at h
        split at h
        · rename_i hv
          rw [varies_iff] at hv
          rw [List.filter_cons_of_pos (by simpa using hv)]
          split at h
          · simp at h
          · rename_i b hb
            simp only [Except.ok.injEq] at h
            subst h
            exact .cons ⟨h1, h3, b, hb, rfl⟩ ih'
        · rename_i hv
          rw [varies_iff] at hv
          rw [List.filter_cons_of_neg (by simpa using hv)]
          simp only [Except.ok.injEq] at h
          subst h
          exact ih'

theorem foldl_mul (l : List Int) (x : Int) : l.foldl (· * ·) x = x * l.prod := by
  induction l generalizing x with
  | nil => simp
  | cons a l ih => rw [List.foldl_cons, ih, List.prod_cons, mul_assoc]

theorem flattenFrom_eq (dims : List Int) (d : Nat) (acc : Int) (vals : List Int) (hl : d + vals.length = dims.length) :
    flattenFrom dims d acc vals = acc + rowMajor (dims.drop d) vals := by
  induction vals generalizing d acc with
  | nil =>
    simp only [flattenFrom]
    cases dims.drop d <;> simp [rowMajor]
  | cons x xs ih =>
    simp only [List.length_cons] at hl
    have hd : d < dims.length := by omega
    rw [flattenFrom, ih (d + 1) _ (by omega), List.drop_eq_getElem_cons hd, rowMajor, foldl_mul]
    ring

open Classical in
theorem iterOffsets_all (vars : List Arr) (hn : (vars.map (·.name)).Nodup) (counters : List String) (loops : List Loop) (consts : String → Option Int)
    (accs : List Access) (hd : ∀ a ∈ accs, ∀ v ∈ vars, a.arr = v.name → a.subs.length = v.dims.length) (spacing cl it : Int) (es : List Sym) (he : offsetExprs vars (baseOffsets spacing cl vars) counters accs = .ok es) (os : List Int)
    (ho : iterOffsets counters loops consts es it = .ok os) (idx : List Int) (hi : globalIteratorToIndices loops it = some idx) :
    ∃ as : List Access, as.Perm (accs.filter fun a => decide (a.arr ∈ vars.map (·.name) ∧ Varies counters a)) ∧
      List.Forall₂ (Address vars (baseOffsets spacing cl vars) (mkEnv counters idx consts)) as os := by
  simp only [iterOffsets, hi] at ho
  have hf := evalAll_mem _ _ _ ho
  obtain ⟨ps, hp, hps⟩ := offsetExprs_all vars _ counters accs hn es he
  refine ⟨ps.map (·.2), hp, ?_⟩
  have hmem : ∀ p ∈ ps, p.2 ∈ accs := fun p h => (List.mem_filter.1 (hp.mem_iff.1 (List.mem_map.2 ⟨p, h, rfl⟩))).1
  clear ho he hp
  induction hps generalizing os with
  | nil => cases hf; exact .nil
  | cons h1 _ ih =>
    cases hf with
    | cons h2 h3 =>
      refine .cons ?_ (ih _ h3 fun p h => hmem p (List.mem_cons_of_mem _ h))
      obtain ⟨hv, ha, b, hb, rfl⟩ := h1
      rename_i p ps es hps v vs
      simp only [Sym.eval, Option.bind_eq_bind] at h2
      cases hfl : Sym.eval (mkEnv counters idx consts) (flattenSymFrom p.1.dims 0 (.num 0) p.2.subs) with
      | none => simp [hfl] at h2
      | some z =>
        simp [hfl] at h2
        obtain ⟨a0, vals, h4, h5, h6⟩ := flattenSymFrom_eval _ _ _ _ _ _ hfl
        simp [Sym.eval] at h4
        have hlen : vals.length = p.1.dims.length := by rw [← h5.length_eq, hd p.2 (hmem p List.mem_cons_self) p.1 hv ha]
        refine ⟨p.1, hv, ha, b, hb, vals, h5, hlen, ?_⟩
        rw [← h2, h6, ← h4, flattenFrom_eq _ _ _ _ (by omega), List.drop_zero]
        ring

theorem flats_iff (v : Var) (as : List (Option (List Sym))) (es : List Sym) :
    flats v as = .ok es ↔ List.Forall₂ (fun a e => flat v a = .ok e) (as.filterMap id) es := by
  induction as generalizing es with
  | nil => simp [flats, eq_comm]
  | cons a as ih =>
    cases a with
    | none => simpa [flats] using ih es
    | some a =>
      simp only [flats, bind, Except.bind, List.filterMap_cons, id_eq]
      cases hf : flat v a with
      | error e => simp [List.forall₂_cons_left_iff, hf]
      | ok e =>
        cases hg : flats v as with
        | error x =>
          simp only [reduceCtorEq, false_iff, List.forall₂_cons_left_iff, not_exists, not_and]
          rintro e' es' - h -
          replace h := (ih _).2 h
          rw [hg] at h
          simp at h
        | ok es' =>
          simp only [Except.ok.injEq, List.forall₂_cons_left_iff, hf]
          constructor
          · rintro rfl
            exact ⟨e, es', rfl, (ih es').1 hg, rfl⟩
          · rintro ⟨e', es'', rfl, h, rfl⟩
            replace h := (ih _).2 h
            rw [hg] at h
            simp only [Except.ok.injEq] at h
            rw [h]

theorem flattenSymFrom_of (env : String → Option Int) (dims : List Int) (d : Nat) (acc : Sym) (z : Int) (as : List Sym) (vals : List Int)
    (ha : acc.eval env = some z) (h : List.Forall₂ (fun s x => s.eval env = some x) as vals) :
    (flattenSymFrom dims d acc as).eval env = some (flattenFrom dims d z vals) := by
  induction h generalizing d acc z with
  | nil => simpa [flattenSymFrom, flattenFrom] using ha
  | cons h1 _ ih =>
    rw [flattenSymFrom, flattenFrom]
    exact ih _ _ _ (by simp [Sym.eval, ha, h1])

theorem forall₂_append_left_iff {α β} {R : α → β → Prop} {as bs : List α} {es : List β} :
    List.Forall₂ R (as ++ bs) es ↔ ∃ r w, List.Forall₂ R as r ∧ List.Forall₂ R bs w ∧ es = r ++ w := by
  induction as generalizing es with
  | nil => simp
  | cons a as ih =>
    simp only [List.cons_append, List.forall₂_cons_left_iff, ih]
    constructor
    · rintro ⟨e, es, h1, ⟨r, w, h2, h3, rfl⟩, rfl⟩
      exact ⟨e :: r, w, ⟨e, r, h1, h2, rfl⟩, h3, rfl⟩
    · rintro ⟨_, w, ⟨e, r, h1, h2, rfl⟩, h3, rfl⟩
      exact ⟨e, r ++ w, h1, ⟨r, w, h2, h3, rfl⟩, rfl⟩

theorem flats_append (v : Var) (as bs : List (Option (List Sym))) (es : List Sym) :
    flats v (as ++ bs) = .ok es ↔ ∃ r w, flats v as = .ok r ∧ flats v bs = .ok w ∧ es = r ++ w := by
  simp only [flats_iff, List.filterMap_append]
  constructor
  · intro h
    obtain ⟨r, w, h1, h2, h3⟩ := forall₂_append_left_iff.1 h
    exact ⟨r, w, h1, h2, h3⟩
  · rintro ⟨r, w, h1, h2, rfl⟩
    exact forall₂_append_left_iff.2 ⟨r, w, h1, h2, rfl⟩

theorem sympyAccesses_iff (sources destinations : List (String × List (Option (List Sym)))) (vars : List Var) (res : List (String × List Sym)) :
    sympyAccesses sources destinations vars = .ok res ↔
      List.Forall₂ (fun v r => r.1 = v.1 ∧ List.Forall₂ (fun a e => flat v a = .ok e) (refs sources destinations v.1) r.2) vars res := by
  induction vars generalizing res with
  | nil => simp [sympyAccesses, eq_comm]
  | cons v vars ih =>
    have hv := flats_append v ((sources.lookup v.1).getD []) ((destinations.lookup v.1).getD [])
    simp only [flats_iff v (_ ++ _)] at hv
    rw [List.forall₂_cons_left_iff]
    simp only [sympyAccesses, bind, Except.bind]
    constructor
    · intro h
      cases h1 : flats v ((sources.lookup v.1).getD []) with
      | error e => simp [h1] at h
      | ok r =>
        cases h2 : flats v ((destinations.lookup v.1).getD []) with
        | error e => simp [h1, h2] at h
        | ok w =>
          cases h3 : sympyAccesses sources destinations vars with
          | error e => simp [h1, h2, h3] at h
          | ok rest =>
            simp only [h1, h2, h3, Except.ok.injEq] at h
            exact ⟨_, rest, ⟨rfl, (hv _).2 ⟨r, w, h1, h2, rfl⟩⟩, (ih rest).1 h3, h.symm⟩
    · rintro ⟨⟨n, es⟩, rest, ⟨h1, h2⟩, h3, rfl⟩
      obtain ⟨r, w, h4, h5, h6⟩ := (hv es).1 h2
      simp only at h1
      rw [h4, h5, (ih rest).2 h3, h1, h6]

end Verif.Refs
