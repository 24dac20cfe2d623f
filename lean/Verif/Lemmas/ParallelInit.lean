import Verif.Model.ParallelInit
import Verif.Lemmas.Parallel

/-! Lemmas for C152. -/

namespace Verif.Parallel

open Verif.CodeGen

variable {V : Type}

/-- Assignments of one constant. -/
def Constant (c : V) (a : Assign Loc V) : Prop := a.reads = [] ∧ ∀ l, a.value l = c

/-- Threads that write a constant leave it in all their targets and change nothing else. -/
theorem constant_steps (c : V) (m0 : Loc → V) (targets : Loc → Prop) (order : List Nat) : ∀ (m : Loc → V) (ts : List (Thread V))
    (st' : (Loc → V) × List (Thread V)),
    (∀ t ∈ ts, ∀ a ∈ t.rest, Constant c a ∧ targets a.target) →
    (∀ l, targets l → m l = c ∨ ∃ t ∈ ts, ∃ a ∈ t.rest, a.target = l) → (∀ l, ¬ targets l → m l = m0 l) →
    steps order (m, ts) = some st' → st'.2.all (fun t => t.rest.isEmpty) = true →
    (∀ l, targets l → st'.1 l = c) ∧ ∀ l, ¬ targets l → st'.1 l = m0 l := by
  induction order with
  | nil =>
    intro m ts st' h1 h2 h3 hs hall
    cases hs
    refine ⟨fun l hl => ?_, h3⟩
    rcases h2 l hl with h | ⟨t, ht, a, ha, -⟩
    · exact h
    · have := List.all_eq_true.1 hall t ht
      simp only [List.isEmpty_iff] at this
      rw [this] at ha
      simp at ha
  | cons i order ih =>
    intro m ts st' h1 h2 h3 hs hall
    simp only [steps, List.foldlM_cons] at hs
    cases h4 : stepAt i (m, ts) with
    | none => rw [h4] at hs; cases hs
    | some st1 =>
      rw [h4] at hs
      unfold stepAt at h4
      simp only at h4
      cases hti : ts[i]? with
      | none => rw [hti] at h4; cases h4
      | some t =>
        rw [hti] at h4
        simp only at h4
        have htm : t ∈ ts := List.mem_of_getElem? hti
        obtain ⟨got, rest⟩ := t
        cases rest with
        | nil => simp [Thread.step] at h4
        | cons a rest =>
          obtain ⟨⟨hr, hv⟩, htg⟩ := h1 _ htm a (by simp)
          obtain ⟨rs, p, f⟩ := a
          simp only at hr hv htg
          subst hr
          simp only [Thread.step, Option.map_some, Option.some.injEq] at h4
          subst h4
          rw [hv] at hs
          refine ih _ _ st' ?_ ?_ ?_ hs hall
          · intro t ht a ha
            rcases List.mem_or_eq_of_mem_set ht with ht | rfl
            · exact h1 t ht a ha
            · exact h1 _ htm a (List.mem_cons_of_mem _ ha)
          · intro l hl
            by_cases hlp : l = p
            · left; simp [put, hlp]
            · rcases h2 l hl with h | ⟨t, ht, a, ha, hal⟩
              · left; simp [put, hlp, h]
              · right
                obtain ⟨j, hj, rfl⟩ := List.getElem_of_mem ht
                have hilt : i < ts.length := (List.getElem?_eq_some_iff.1 hti).1
                by_cases hij : j = i
                · subst hij
                  rw [List.getElem?_eq_getElem hj, Option.some.injEq] at hti
                  rw [hti] at ha
                  rcases List.mem_cons.1 ha with rfl | ha
                  · exact absurd hal.symm hlp
                  · exact ⟨_, List.mem_set hilt _, a, ha, hal⟩
                · refine ⟨ts[j], ?_, a, ha, hal⟩
                  have : (ts.set i ⟨[], rest⟩)[j]? = some ts[j] := by
                    rw [List.getElem?_set_ne (fun e => hij e.symm), List.getElem?_eq_getElem hj]
                  exact List.mem_of_getElem? this
          · intro l hl
            have : l ≠ p := fun e => hl (e ▸ htg)
            simp only [put, if_neg this]
            exact h3 l hl

/-- The initialisation, whatever the order of the steps. -/
theorem initPhase_result (c : V) (parts : List (List (List (Assign Name V)))) (order : List Nat) (m m' : Loc → V)
    (h : phase order (initPhase c parts) m = some m') :
    (∀ p ∈ parts, ∀ i ∈ p, ∀ a ∈ i, ∀ b k, .elem b k ∈ a.places → m' (.elem b k) = c) ∧
      ∀ l, (∀ p ∈ parts, ∀ i ∈ p, ∀ a ∈ i, ∀ b k, .elem b k ∈ a.places → l ≠ .elem b k) → m' l = m l := by
  unfold phase at h
  split at h
  · cases h
  · next m1 ts hs =>
    split at h
    · next hall =>
      cases h
      have hmem : ∀ x : Assign Loc V, ∀ p : List (List (Assign Name V)), x ∈ p.flatten.flatMap (initAssign c) ↔
          ∃ i ∈ p, ∃ a ∈ i, ∃ b k, .elem b k ∈ a.places ∧ x = ⟨[], .elem b k, fun _ => c⟩ := by
        intro x p
        simp only [List.mem_flatMap, List.mem_flatten, initAssign, List.mem_filterMap]
        constructor
        · rintro ⟨a, ⟨i, hi, ha⟩, n, hn, e⟩
          cases n with
          | scalar s => cases e
          | elem b k => cases e; exact ⟨i, hi, a, ha, b, k, hn, rfl⟩
        · rintro ⟨i, hi, a, ha, b, k, hn, rfl⟩
          exact ⟨a, ⟨i, hi, ha⟩, _, hn, rfl⟩
      have hp := constant_steps c m (fun l => ∃ p ∈ parts, ∃ i ∈ p, ∃ a ∈ i, ∃ b k, Name.elem b k ∈ a.places ∧ l = .elem b k) order m
        ((initPhase c parts).map fun p => ⟨[], p⟩) (m', ts) (by
          intro t ht x hx
          simp only [initPhase, List.map_map, List.mem_map, Function.comp] at ht
          obtain ⟨p, hp, rfl⟩ := ht
          obtain ⟨i, hi, a, ha, b, k, hn, rfl⟩ := (hmem x p).1 hx
          exact ⟨⟨rfl, fun _ => rfl⟩, p, hp, i, hi, a, ha, b, k, hn, rfl⟩) (by
          rintro l ⟨p, hp, i, hi, a, ha, b, k, hn, rfl⟩
          refine Or.inr ⟨⟨[], p.flatten.flatMap (initAssign c)⟩, ?_, ⟨[], .elem b k, fun _ => c⟩, ?_, rfl⟩
          · simp only [initPhase, List.map_map, List.mem_map, Function.comp]
            exact ⟨p, hp, rfl⟩
          · exact (hmem _ p).2 ⟨i, hi, a, ha, b, k, hn, rfl⟩) (fun _ _ => rfl) hs hall
      refine ⟨fun p hp' i hi a ha b k hn => hp.1 _ ⟨p, hp', i, hi, a, ha, b, k, hn, rfl⟩, fun l hl => hp.2 l ?_⟩
      rintro ⟨p, hp', i, hi, a, ha, b, k, hn, rfl⟩
      exact hl p hp' i hi a ha b k hn rfl
    · cases h

/-! ### Equal memory, equal steps -/

/-- Two memories agree on the places that are read. -/
theorem stepAt_agree (S : Loc → Prop) (i : Nat) (m m2 : Loc → V) (ts : List (Thread V)) (st1 : (Loc → V) × List (Thread V))
    (hr : ∀ t ∈ ts, ∀ a ∈ t.rest, ∀ l ∈ a.reads, S l) (hm : ∀ l, S l → m l = m2 l) (h : stepAt i (m, ts) = some st1) :
    ∃ m2', stepAt i (m2, ts) = some (m2', st1.2) ∧ (∀ l, S l → st1.1 l = m2' l) ∧ ∀ t ∈ st1.2, ∀ a ∈ t.rest, ∀ l ∈ a.reads, S l := by
  unfold stepAt at h ⊢
  simp only at h ⊢
  cases hti : ts[i]? with
  | none => rw [hti] at h; cases h
  | some t =>
    rw [hti] at h
    simp only at h ⊢
    have htm : t ∈ ts := List.mem_of_getElem? hti
    have hset : ∀ t', (∀ a ∈ t'.rest, ∀ l ∈ a.reads, S l) → ∀ t ∈ ts.set i t', ∀ a ∈ t.rest, ∀ l ∈ a.reads, S l := by
      intro t' ht' t ht
      rcases List.mem_or_eq_of_mem_set ht with ht | rfl
      · exact hr t ht
      · exact ht'
    obtain ⟨got, rest⟩ := t
    cases rest with
    | nil => simp [Thread.step] at h
    | cons a rest =>
      have hra := hr _ htm a (by simp)
      have hrr : ∀ b ∈ rest, ∀ l ∈ b.reads, S l := fun b hb => hr _ htm b (List.mem_cons_of_mem _ hb)
      obtain ⟨rs, p, f⟩ := a
      cases rs with
      | nil =>
        simp only [Thread.step, Option.map_some, Option.some.injEq] at h ⊢
        subst h
        refine ⟨_, rfl, fun l hl => ?_, hset _ hrr⟩
        simp only [put]
        rw [hm l hl]
      | cons l ls =>
        simp only [Thread.step, Option.map_some, Option.some.injEq] at h ⊢
        subst h
        refine ⟨m2, ?_, hm, hset _ ?_⟩
        · rw [hm l (hra l (by simp))]
        · intro b hb
          rcases List.mem_cons.1 hb with rfl | hb
          · exact fun r hr' => hra r (List.mem_cons_of_mem _ hr')
          · exact hrr b hb

theorem steps_agree (S : Loc → Prop) (order : List Nat) : ∀ (m m2 : Loc → V) (ts : List (Thread V)) (st1 : (Loc → V) × List (Thread V)),
    (∀ t ∈ ts, ∀ a ∈ t.rest, ∀ l ∈ a.reads, S l) → (∀ l, S l → m l = m2 l) → steps order (m, ts) = some st1 →
    ∃ m2', steps order (m2, ts) = some (m2', st1.2) ∧ ∀ l, S l → st1.1 l = m2' l := by
  induction order with
  | nil =>
    intro m m2 ts st1 _ hm h
    cases h
    exact ⟨m2, rfl, hm⟩
  | cons i order ih =>
    intro m m2 ts st1 hr hm h
    simp only [steps, List.foldlM_cons] at h ⊢
    cases h1 : stepAt i (m, ts) with
    | none => rw [h1] at h; cases h
    | some st =>
      rw [h1] at h
      obtain ⟨m3, h2, h3, h4⟩ := stepAt_agree S i m m2 ts st hr hm h1
      obtain ⟨m4, h5, h6⟩ := ih st.1 m3 st.2 st1 h4 h3 h
      refine ⟨m4, ?_, h6⟩
      rw [h2]
      exact h5

theorem runPhases_agree (S : Loc → Prop) (ps : List (List (List (Assign Loc V)))) (hr : ∀ p ∈ ps, ∀ q ∈ p, ∀ a ∈ q, ∀ l ∈ a.reads, S l) :
    ∀ (orders : List (List Nat)) (m m2 m' : Loc → V), (∀ l, S l → m l = m2 l) → runPhases orders ps m = some m' →
    ∃ m2', runPhases orders ps m2 = some m2' ∧ ∀ l, S l → m' l = m2' l := by
  induction ps with
  | nil =>
    intro orders m m2 m' hm h
    cases orders with
    | cons _ _ => cases h
    | nil => cases h; exact ⟨m2, rfl, hm⟩
  | cons p ps ih =>
    intro orders m m2 m' hm h
    cases orders with
    | nil => cases h
    | cons o os =>
      simp only [runPhases] at h ⊢
      cases hp : phase o p m with
      | none => rw [hp] at h; cases h
      | some m1 =>
        rw [hp] at h
        unfold phase at hp
        split at hp
        · cases hp
        · next ma ts hs =>
          split at hp
          · next hall =>
            cases hp
            obtain ⟨mb, h1, h2⟩ := steps_agree S o m m2 _ _ (by
              intro t ht
              obtain ⟨q, hq, rfl⟩ := List.mem_map.1 ht
              exact hr p (by simp) q hq) hm hs
            obtain ⟨mc, h3, h4⟩ := ih (fun q hq => hr q (List.mem_cons_of_mem _ hq)) os m1 mb m' h2 h
            refine ⟨mc, ?_, h4⟩
            simp only [phase, h1, hall, if_true, Option.bind_some]
            exact h3
          · cases hp

/-- Places not written stay. -/
theorem steps_untouched (l : Loc) (order : List Nat) : ∀ (st st' : (Loc → V) × List (Thread V)), (∀ t ∈ st.2, ∀ a ∈ t.rest, a.target ≠ l) →
    steps order st = some st' → st'.1 l = st.1 l := by
  induction order with
  | nil => intro st st' _ h; cases h; rfl
  | cons i order ih =>
    intro st st' hw h
    obtain ⟨m, ts⟩ := st
    simp only [steps, List.foldlM_cons] at h
    cases h1 : stepAt i (m, ts) with
    | none => rw [h1] at h; cases h
    | some st1 =>
      rw [h1] at h
      unfold stepAt at h1
      simp only at h1
      cases hti : ts[i]? with
      | none => rw [hti] at h1; cases h1
      | some t =>
        rw [hti] at h1
        simp only at h1
        have htm : t ∈ ts := List.mem_of_getElem? hti
        have hset : ∀ t' : Thread V, (∀ a ∈ t'.rest, a.target ≠ l) → ∀ t ∈ ts.set i t', ∀ a ∈ t.rest, a.target ≠ l := by
          intro t' ht' t ht
          rcases List.mem_or_eq_of_mem_set ht with ht | rfl
          · exact hw t ht
          · exact ht'
        obtain ⟨got, rest⟩ := t
        cases rest with
        | nil => simp [Thread.step] at h1
        | cons a rest =>
          have ha := hw _ htm a (by simp)
          have hrr : ∀ b ∈ rest, b.target ≠ l := fun b hb => hw _ htm b (List.mem_cons_of_mem _ hb)
          obtain ⟨rs, p, f⟩ := a
          cases rs with
          | nil =>
            simp only [Thread.step, Option.map_some, Option.some.injEq] at h1
            subst h1
            rw [ih _ st' (hset _ hrr) h]
            simp only at ha
            simp [put, Ne.symm ha]
          | cons r rs =>
            simp only [Thread.step, Option.map_some, Option.some.injEq] at h1
            subst h1
            rw [ih _ st' (hset _ ?_) h]
            intro b hb
            rcases List.mem_cons.1 hb with rfl | hb
            · exact ha
            · exact hrr b hb

theorem runPhases_untouched (l : Loc) (ps : List (List (List (Assign Loc V)))) (hw : ∀ p ∈ ps, ∀ q ∈ p, ∀ a ∈ q, a.target ≠ l) :
    ∀ (orders : List (List Nat)) (m m' : Loc → V), runPhases orders ps m = some m' → m' l = m l := by
  induction ps with
  | nil =>
    intro orders m m' h
    cases orders with
    | cons _ _ => cases h
    | nil => cases h; rfl
  | cons p ps ih =>
    intro orders m m' h
    cases orders with
    | nil => cases h
    | cons o os =>
      simp only [runPhases] at h
      cases hp : phase o p m with
      | none => rw [hp] at h; cases h
      | some m1 =>
        rw [hp] at h
        rw [ih (fun q hq => hw q (List.mem_cons_of_mem _ hq)) os m1 m' h]
        unfold phase at hp
        split at hp
        · cases hp
        · next ma ts hs =>
          split at hp
          · cases hp
            refine steps_untouched l o _ _ ?_ hs
            intro t ht
            obtain ⟨q, hq, rfl⟩ := List.mem_map.1 ht
            exact hw p (by simp) q hq
          · cases hp

/-! ### The kernel function -/

variable [Inhabited V]

/-- The assignments of all phases. -/
theorem phases_mem (items : List Item) (threads : Nat) (calls : List (List (List (List (Assign Name V))))) :
    ∀ before : List (Assign Loc V), ∀ p ∈ phases items threads before calls, ∀ q ∈ p, ∀ a ∈ q,
      a ∈ before ∨ a ∈ copyIn items ∨ a ∈ copyOut items ∨ ∃ parts ∈ calls, ∃ part ∈ parts, ∃ i ∈ part, ∃ b ∈ i, a = compiled b := by
  induction calls with
  | nil =>
    intro before p hp q hq a ha
    simp only [phases, List.mem_singleton] at hp
    subst hp
    rw [(List.mem_replicate.1 hq).2] at ha
    exact Or.inl ha
  | cons parts calls ih =>
    intro before p hp q hq a ha
    simp only [phases, List.mem_cons] at hp
    rcases hp with rfl | hp
    · obtain ⟨part, hpart, rfl⟩ := List.mem_map.1 hq
      simp only [List.mem_append, List.mem_map, List.mem_flatten] at ha
      rcases ha with (ha | ha) | ⟨b, ⟨i, hi, hb⟩, rfl⟩
      · exact Or.inl ha
      · exact Or.inr (Or.inl ha)
      · exact Or.inr (Or.inr (Or.inr ⟨parts, by simp, part, hpart, i, hi, b, hb, rfl⟩))
    · rcases ih _ p hp q hq a ha with h | h | h | ⟨ps, hps, h⟩
      · exact Or.inr (Or.inr (Or.inl h))
      · exact Or.inr (Or.inl h)
      · exact Or.inr (Or.inr (Or.inl h))
      · exact Or.inr (Or.inr (Or.inr ⟨ps, List.mem_cons_of_mem _ hps, h⟩))

end Verif.Parallel
