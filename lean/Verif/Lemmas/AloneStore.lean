import Verif.Model.AloneStore
import Verif.Props.Measure

/-! Lemmas for C143. -/

namespace Verif.AloneStore

open Verif.Standalone Verif.Measure

/-- The constants that belong to variables. -/
def constsOf (vars : List Var) : Consts := vars.map fun v => (v.name, v.value)

theorem put_new {K W : Type} [DecidableEq K] (k : K) (v : W) (l : List (K × W)) (h : k ∉ l.map Prod.fst) : put k v l = l ++ [(k, v)] := by
  induction l with
  | nil => rfl
  | cons x l ih =>
    simp only [List.map_cons, List.mem_cons, not_or] at h
    simp only [put, if_neg (Ne.symm h.1), ih h.2, List.cons_append]

theorem initial_eq (vars : List Var) (h : (vars.map (·.name)).Nodup) : initial vars = constsOf vars := by
  have : ∀ (vs : List Var) (c : Consts), (∀ v ∈ vs, v.name ∉ c.map Prod.fst) → (vs.map (·.name)).Nodup →
      vs.foldl (fun c v => put v.name v.value c) c = c ++ constsOf vs := by
    intro vs
    induction vs with
    | nil => intro c _ _; simp [constsOf]
    | cons v vs ih =>
      intro c h1 h2
      rw [List.map_cons, List.nodup_cons] at h2
      rw [List.foldl_cons, put_new _ _ _ (h1 v (by simp)), ih _ ?_ h2.2]
      · simp [constsOf]
      · intro w hw
        rw [List.map_append, List.mem_append, not_or]
        refine ⟨h1 w (List.mem_cons_of_mem _ hw), ?_⟩
        simp only [List.map_cons, List.map_nil, List.mem_singleton]
        intro e
        exact h2.1 (e ▸ List.mem_map_of_mem hw)
  unfold initial
  rw [this vars [] (by simp) h]
  rfl

theorem put_const (name : String) (x : ℚ) (vs : List Var) (vs1 vs2 : List Var) (v : Var) (hv : v.name = name) (h : vs = vs1 ++ v :: vs2)
    (hn : (vs.map (·.name)).Nodup) : put name x (constsOf vs) = constsOf (vs1 ++ { v with value := x } :: vs2) := by
  subst h
  induction vs1 with
  | nil => simp [constsOf, put, hv]
  | cons w vs1 ih =>
    simp only [List.cons_append, List.map_cons, List.nodup_cons] at hn
    have hw : w.name ≠ name := by
      intro e
      apply hn.1
      rw [e, ← hv]
      simp
    have := ih hn.2
    simp only [constsOf, List.cons_append, List.map_cons, put, if_neg hw, List.cons.injEq, true_and]
    exact this

theorem adjustFirst_cases (region : String) (rt : ℚ) (vs vs' : List Var) (o : Option (String × ℚ)) (h : adjustFirst region rt vs = .ok (vs', o)) :
    (o = none ∧ vs' = vs) ∨ ∃ vs1 v vs2 x, o = some (v.name, x) ∧ vs = vs1 ++ v :: vs2 ∧ vs' = vs1 ++ { v with value := x } :: vs2 := by
  induction vs generalizing vs' with
  | nil =>
    simp only [adjustFirst, Except.ok.injEq, Prod.mk.injEq] at h
    exact Or.inl ⟨h.2.symm, h.1.symm⟩
  | cons v vs ih =>
    have hrec : (adjustFirst region rt vs).map (fun r => (v :: r.1, r.2)) = .ok (vs', o) →
        (o = none ∧ vs' = v :: vs) ∨ ∃ vs1 w vs2 x, o = some (w.name, x) ∧ v :: vs = vs1 ++ w :: vs2 ∧
          vs' = vs1 ++ { w with value := x } :: vs2 := by
      intro h
      cases hr : adjustFirst region rt vs with
      | error e => rw [hr] at h; cases h
      | ok r =>
        obtain ⟨us, p⟩ := r
        rw [hr] at h
        simp only [Except.map, Except.ok.injEq, Prod.mk.injEq] at h
        obtain ⟨rfl, rfl⟩ := h
        rcases ih us hr with ⟨rfl, rfl⟩ | ⟨vs1, w, vs2, x, h1, h2, h3⟩
        · exact Or.inl ⟨rfl, rfl⟩
        · exact Or.inr ⟨v :: vs1, w, vs2, x, h1, by rw [h2]; rfl, by rw [h3]; rfl⟩
    unfold adjustFirst at h
    split at h
    · split at h
      · cases h
      · split at h
        · rename_i x _
          simp only [Except.ok.injEq, Prod.mk.injEq] at h
          obtain ⟨rfl, rfl⟩ := h
          exact Or.inr ⟨[], v, vs, x, rfl, rfl, rfl⟩
        · exact hrec h
    · exact hrec h

theorem adjustRegions_consts (rts : List (String × ℚ)) : ∀ (st st' : St) (c' : Consts) (b : Bool), (st.vars.map (·.name)).Nodup →
    adjustRegions st (constsOf st.vars) rts = .ok ((st', c'), b) →
    st'.vars.map (·.name) = st.vars.map (·.name) ∧ c' = constsOf st'.vars ∧ (b = false → st'.vars = st.vars) := by
  induction rts with
  | nil =>
    intro st st' c' b _ h
    simp only [adjustRegions, Except.ok.injEq, Prod.mk.injEq] at h
    obtain ⟨⟨rfl, rfl⟩, rfl⟩ := h
    exact ⟨rfl, rfl, fun _ => rfl⟩
  | cons r rts ih =>
    obtain ⟨region, rt⟩ := r
    intro st st' c' b hn h
    unfold adjustRegions at h
    split at h
    · cases h
    · rename_i vars hf
      rcases adjustFirst_cases _ _ _ _ _ hf with ⟨-, rfl⟩ | ⟨_, _, _, _, h1, -, -⟩
      · exact ih _ st' c' b hn h
      · cases h1
    · rename_i vars name x hf
      rcases adjustFirst_cases _ _ _ _ _ hf with ⟨h1, -⟩ | ⟨vs1, v, vs2, y, h1, h2, h3⟩
      · cases h1
      simp only [Option.some.injEq, Prod.mk.injEq] at h1
      obtain ⟨rfl, rfl⟩ := h1
      split at h
      · cases h
      · rename_i ids _
        split at h
        · cases h
        · rename_i r b' hr
          simp only [Except.ok.injEq, Prod.mk.injEq] at h
          obtain ⟨rfl, rfl⟩ := h
          have hnames : vars.map (·.name) = st.vars.map (·.name) := by rw [h2, h3]; simp
          rw [put_const v.name x st.vars vs1 vs2 v rfl h2 hn, ← h3] at hr
          obtain ⟨g1, g2, -⟩ := ih _ st' c' b' (by rw [hnames]; exact hn) hr
          exact ⟨g1.trans hnames, g2, fun e => by cases e⟩

theorem measureLoop_consts (measure : Nat → St → List (String × ℚ)) (fuel : Nat) : ∀ (n : Nat) (rts : List (String × ℚ)) (st : St) (last : List ℚ)
    (st' : St) (c' : Consts) (last' : List ℚ), (st.vars.map (·.name)).Nodup → (last = st.vars.map (·.value) ∨ minRuntime rts = some 0) →
    measureLoop measure fuel n rts st (constsOf st.vars) last = some (.ok (st', c', last')) →
    st'.vars.map (·.name) = st.vars.map (·.name) ∧ c' = constsOf st'.vars ∧ last' = st'.vars.map (·.value) := by
  induction fuel with
  | zero => intro n rts st last st' c' last' _ _ h; cases h
  | succ fuel ih =>
    intro n rts st last st' c' last' hn hl h
    unfold measureLoop at h
    split at h
    · cases h
    · rename_i m hm
      split at h
      · split at h
        · exact ih _ _ _ _ _ _ _ hn (Or.inl rfl) h
        · rename_i hm0
          have hl : last = st.vars.map (·.value) := by
            rcases hl with hl | hl
            · exact hl
            · rw [hm] at hl
              exact absurd (Option.some.inj hl) hm0
          split at h
          · cases h
          · rename_i st1 c1 hr
            obtain ⟨g1, g2, g3⟩ := adjustRegions_consts _ st st1 c1 false hn hr
            simp only [Option.some.injEq, Except.ok.injEq, Prod.mk.injEq] at h
            obtain ⟨rfl, rfl, rfl⟩ := h
            exact ⟨g1, g2, by rw [hl, g3 rfl]⟩
          · rename_i st1 c1 hr
            obtain ⟨g1, g2, -⟩ := adjustRegions_consts _ st st1 c1 true hn hr
            subst g2
            obtain ⟨k1, k2, k3⟩ := ih _ _ st1 _ st' c' last' (by rw [g1]; exact hn) (Or.inl rfl) h
            exact ⟨k1.trans g1, k2, k3⟩
      · rename_i hm'
        have hl : last = st.vars.map (·.value) := by
          rcases hl with hl | hl
          · exact hl
          · rw [hm] at hl
            cases hl
            norm_num at hm'
        simp only [Option.some.injEq, Except.ok.injEq, Prod.mk.injEq] at h
        obtain ⟨rfl, rfl, rfl⟩ := h
        exact ⟨rfl, rfl, hl⟩

theorem adjustRegions_states : ∀ (rs : List (String × ℚ)) (st : St) (c : Consts),
    (adjustRegions st c rs).map (fun r => (r.1.1, r.2)) = Standalone.adjustRegions st rs
  | [], st, c => rfl
  | (region, runtime) :: rest, st, c => by
    simp only [adjustRegions, Standalone.adjustRegions, Standalone.adjustRegion, bind, Except.bind]
    cases adjustFirst region runtime st.vars with
    | error e => rfl
    | ok r =>
      obtain ⟨vs, o⟩ := r
      cases o with
      | none =>
        simp only
        rw [← adjustRegions_states rest { st with vars := vs } c]
        cases adjustRegions { st with vars := vs } c rest <;> simp [Except.map]
      | some x =>
        simp only
        cases st.loops.lookup region with
        | none => rfl
        | some ids =>
          simp only
          rw [← adjustRegions_states rest { st with vars := vs, heap := modifyAt (adjustLoop x.1 x.2) ids st.heap } (put x.1 x.2 c)]
          cases adjustRegions { st with vars := vs, heap := modifyAt (adjustLoop x.1 x.2) ids st.heap } (put x.1 x.2 c) rest <;> simp [Except.map]

theorem measureLoop_states (measure : Nat → St → List (String × ℚ)) :
    ∀ (fuel n : Nat) (runtimes : List (String × ℚ)) (st : St) (c : Consts) (last : List ℚ),
    (measureLoop measure fuel n runtimes st c last).map (·.map (·.1)) = Standalone.measureLoop measure fuel n runtimes st
  | 0, _, _, _, _, _ => rfl
  | fuel + 1, n, runtimes, st, c, last => by
    simp only [measureLoop, Standalone.measureLoop, adjustVariables]
    cases minRuntime runtimes with
    | none => rfl
    | some m =>
      simp only
      split
      · split
        · exact measureLoop_states measure fuel _ _ _ _ _
        · rw [← adjustRegions_states _ st c]
          cases adjustRegions st c (runtimes.filter fun r => r.2 < 3 / 2) with
          | error e => rfl
          | ok r =>
            obtain ⟨⟨st', c'⟩, b⟩ := r
            cases b
            · rfl
            · exact measureLoop_states measure fuel _ _ _ _ _
      · rfl

theorem findOf_store {ρ : Type} (s : Storage ρ) (binary : List Char) (c : Consts) (r : ρ) (name : List Char) (d : Consts) (m : String) :
    findOf (store s binary c r) name d m =
      if name = baseName binary ∧ d = c ∧ m = "stand-alone benchmark" then some r else findOf s name d m := by
  unfold store
  simp only [findOf, get_put]
  by_cases hn : name = baseName binary
  · subst hn
    simp only [if_true, get_put, true_and]
    by_cases hd : d = c
    · subst hd
      by_cases hm : m = "stand-alone benchmark"
      · simp [get_put, hm]
      · simp only [if_true, get_put, hm, if_false, and_false]
        cases hb : Measure.get (baseName binary) s with
        | none => simp [Measure.get]
        | some ofBin => cases hc : Measure.get d ofBin <;> simp [Measure.get, hc]
    · simp only [if_neg hd]
      cases Measure.get (baseName binary) s <;> simp [Measure.get, hd]
  · simp [hn]

theorem find_store {ρ : Type} (s : Storage ρ) (binary : List Char) (c : Consts) (r : ρ) (name : List Char) (d : Consts) :
    find (store s binary c r) name d = if name = baseName binary ∧ d = c then some r else find s name d := by
  unfold find
  rw [findOf_store]
  simp

end Verif.AloneStore
