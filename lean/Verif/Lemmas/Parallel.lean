import Verif.Model.Parallel
import Mathlib.Algebra.Order.BigOperators.Group.List

/-! Lemmas for C151. -/

namespace Verif.Parallel

open Verif.CodeGen

variable {V : Type}

section
variable {P : Type} [DecidableEq P]

theorem put_self (m : P → V) (p : P) : put m p (m p) = m := by
  funext q
  unfold put
  split
  · next h => rw [h]
  · rfl

theorem execAll_cons (m : P → V) (a : Assign P V) (l : List (Assign P V)) : execAll m (a :: l) = execAll (exec m a) l := rfl

theorem execAll_append (m : P → V) (l l' : List (Assign P V)) : execAll m (l ++ l') = execAll (execAll m l) l' :=
  List.foldl_append

theorem execAll_other (l : List (Assign P V)) (p : P) : ∀ m : P → V, (∀ a ∈ l, a.target ≠ p) → execAll m l p = m p := by
  induction l with
  | nil => intro m _; rfl
  | cons a l ih =>
    intro m h
    rw [execAll_cons, ih _ fun b hb => h b (List.mem_cons_of_mem _ hb)]
    unfold exec put
    rw [if_neg fun e => h a (by simp) e.symm]

theorem exec_congr (a : Assign P V) (m m' : P → V) (p : P) (h : ∀ q, q = p ∨ q ∈ a.reads → m q = m' q) : exec m a p = exec m' a p := by
  unfold exec put
  split
  · congr 1
    exact List.map_congr_left fun q hq => h q (Or.inr hq)
  · exact h p (Or.inl rfl)

/-- Only what is read or asked for matters. -/
theorem execAll_congr (S : P → Prop) (l : List (Assign P V)) : ∀ m m' : P → V, (∀ a ∈ l, ∀ q ∈ a.reads, S q) → (∀ q, S q → m q = m' q) →
    ∀ q, S q → execAll m l q = execAll m' l q := by
  induction l with
  | nil => intro m m' _ h q hq; exact h q hq
  | cons a l ih =>
    intro m m' hr h q hq
    rw [execAll_cons, execAll_cons]
    refine ih _ _ (fun b hb => hr b (List.mem_cons_of_mem _ hb)) ?_ q hq
    intro q' hq'
    refine exec_congr a m m' q' ?_
    rintro q'' (rfl | h')
    · exact h _ hq'
    · exact h _ (hr a (by simp) _ h')

omit [DecidableEq P] in
theorem independent_symm {i j : List (Assign P V)} (h : Independent i j) : Independent j i :=
  fun a ha b hb => ⟨(h b hb a ha).2, (h b hb a ha).1⟩

/-- Of independent iterations, one alone does to its places what all do. -/
theorem execAll_iteration (iters : List (List (Assign P V))) : ∀ m : P → V, iters.Pairwise Independent → ∀ i ∈ iters, ∀ a ∈ i, ∀ p ∈ a.places,
    execAll m iters.flatten p = execAll m i p := by
  induction iters with
  | nil => intro m _ i hi; simp at hi
  | cons j js ih =>
    intro m hp i hi a ha p hpl
    rw [List.pairwise_cons] at hp
    rw [List.flatten_cons, execAll_append]
    rcases List.mem_cons.1 hi with rfl | hi
    · apply execAll_other
      intro b hb e
      obtain ⟨k, hk, hbk⟩ := List.mem_flatten.1 hb
      exact (hp.1 k hk a ha b hbk).2 (e ▸ hpl)
    · rw [ih _ hp.2 i hi a ha p hpl]
      refine execAll_congr (fun q => ∃ b ∈ i, q ∈ b.places) i _ _ (fun b hb q hq => ⟨b, hb, by simp [Assign.places, hq]⟩) ?_ p ⟨a, ha, hpl⟩
      rintro q ⟨b, hb, hq⟩
      apply execAll_other
      intro c hc e
      exact (hp.1 i hi c hc b hb).1 (e ▸ hq)

end

/-! ### One phase -/

/-- Memory with all scalars of the kernel function and of the main program at their values. -/
def calm (v : String → V) (m : Loc → V) : Loc → V
  | .main s => v s
  | .static s => v s
  | .elem a i => m (.elem a i)

/-- Element of an array. -/
def IsElem : Loc → Prop
  | .elem _ _ => True
  | _ => False

/-- Static variables are read after they were set, by the thread itself or before (`G`), and scalars are set to their values. -/
def Ok (v : String → V) : (String → Prop) → List V → List (Assign Loc V) → Prop
  | _, _, [] => True
  | G, got, a :: rest => (∀ x, .static x ∈ a.reads → G x) ∧
    match a.target with
    | .elem _ _ => Ok v G [] rest
    | .static x => ((∀ l ∈ a.reads, ¬ IsElem l) ∧ ∀ m, a.value (got ++ a.reads.map (calm v m)) = v x) ∧ Ok v (fun y => y = x ∨ G y) [] rest
    | .main x => ((∀ l ∈ a.reads, ¬ IsElem l) ∧ ∀ m, a.value (got ++ a.reads.map (calm v m)) = v x) ∧ Ok v G [] rest

theorem Ok.mono {v : String → V} (l : List (Assign Loc V)) : ∀ {G G' : String → Prop} {got : List V}, (∀ x, G x → G' x) → Ok v G got l → Ok v G' got l := by
  induction l with
  | nil => intro G G' got _ _; simp [Ok]
  | cons a l ih =>
    intro G G' got hG h
    unfold Ok at h ⊢
    refine ⟨fun x hx => hG x (h.1 x hx), ?_⟩
    obtain ⟨rs, tg, f⟩ := a
    cases tg with
    | elem b i => exact ih hG h.2
    | static x => exact ⟨h.2.1, ih (fun y => Or.imp_right (hG y)) h.2.2⟩
    | main x => exact ⟨h.2.1, ih hG h.2.2⟩

/-- What a thread would leave without others. -/
def finish (m : Loc → V) (t : Thread V) : Loc → V :=
  match t.rest with
  | [] => m
  | a :: rest => execAll (put m a.target (a.value (t.got ++ a.reads.map m))) rest

theorem finish_start (m : Loc → V) (p : List (Assign Loc V)) : finish m ⟨[], p⟩ = execAll m p := by
  cases p <;> rfl

theorem finish_other (m : Loc → V) (t : Thread V) (p : Loc) (x : V) (q : Loc) (hq : q ≠ p) (h : ∀ a ∈ t.rest, p ∉ a.places) :
    finish (put m p x) t q = finish m t q := by
  have hput : ∀ q, q ≠ p → put m p x q = m q := fun q hq => by simp [put, hq]
  unfold finish
  cases ht : t.rest with
  | nil => exact hput q hq
  | cons a rest =>
    rw [ht] at h
    simp only
    refine execAll_congr (fun q => q ≠ p) rest _ _ (fun b hb q hq e => h b (List.mem_cons_of_mem _ hb) (e ▸ by simp [Assign.places, hq])) ?_ q hq
    intro q' hq'
    have hm : a.reads.map (put m p x) = a.reads.map m :=
      List.map_congr_left fun r hr => hput r fun e => h a (by simp) (e ▸ by simp [Assign.places, hr])
    rw [hm]
    unfold put
    split
    · rfl
    · rfl

theorem calm_elem (v : String → V) (m : Loc → V) (b : String) (i : Int) (x : V) : calm v (put m (.elem b i) x) = put (calm v m) (.elem b i) x := by
  funext q
  cases q <;> simp [calm, put]

theorem calm_static (v : String → V) (m : Loc → V) (s : String) (x : V) : calm v (put m (.static s) x) = calm v m := by
  funext q
  cases q <;> simp [calm, put]

/-- The programs of two threads. -/
def Apart (p q : List (Assign Loc V)) : Prop := ∀ a ∈ p, IsElem a.target → ∀ b ∈ q, a.target ∉ b.places

/-- What holds for a thread with program `p`. -/
structure ThreadInv (v : String → V) (m0 m : Loc → V) (p : List (Assign Loc V)) (t : Thread V) : Prop where
  sub : ∀ a ∈ t.rest, ∃ b ∈ p, a.target = b.target ∧ ∀ l ∈ a.places, l ∈ b.places
  ok : Ok v (fun x => m (.static x) = v x) t.got t.rest
  fin : ∀ a ∈ p, ∀ l ∈ a.places, IsElem l → finish (calm v m) t l = execAll (calm v m0) p l
  set : ∀ a ∈ p, ∀ x, a.target = .static x → m (.static x) = v x ∨ ∃ b ∈ t.rest, b.target = .static x

/-- What holds for all threads. -/
structure Inv (v : String → V) (m0 : Loc → V) (progs : List (List (Assign Loc V))) (st : (Loc → V) × List (Thread V)) : Prop where
  len : st.2.length = progs.length
  main : ∀ s, st.1 (.main s) = v s
  kept : ∀ x, m0 (.static x) = v x → st.1 (.static x) = v x
  same : ∀ l, IsElem l → (∀ p ∈ progs, ∀ a ∈ p, a.target ≠ l) → st.1 l = m0 l
  threads : ∀ (i : Nat) t p, st.2[i]? = some t → progs[i]? = some p → ThreadInv v m0 st.1 p t

theorem inv_step (v : String → V) (m0 : Loc → V) (progs : List (List (Assign Loc V)))
    (hap : ∀ (i j : Nat) p q, i ≠ j → progs[i]? = some p → progs[j]? = some q → Apart p q)
    (st st' : (Loc → V) × List (Thread V)) (i : Nat) (h : Inv v m0 progs st) (hs : stepAt i st = some st') : Inv v m0 progs st' := by
  obtain ⟨m, ts⟩ := st
  unfold stepAt at hs
  simp only at hs
  cases hti : ts[i]? with
  | none => rw [hti] at hs; cases hs
  | some t =>
    rw [hti] at hs
    simp only at hs
    have hilt : i < ts.length := (List.getElem?_eq_some_iff.1 hti).1
    obtain ⟨p, hpi⟩ : ∃ p, progs[i]? = some p := ⟨progs[i]'(h.len ▸ hilt), List.getElem?_eq_getElem _⟩
    have hti' := h.threads i t p hti hpi
    simp only at hti'
    obtain ⟨got, rest⟩ := t
    unfold Thread.step at hs
    cases rest with
    | nil => simp at hs
    | cons a rest =>
      obtain ⟨rs, tg, f⟩ := a
      cases rs with
      | cons l ls =>
        simp only [Option.map_some, Option.some.injEq] at hs
        subst hs
        refine ⟨by simpa using h.len, h.main, h.kept, h.same, ?_⟩
        intro j t' q hj hq
        simp only [List.getElem?_set] at hj
        split at hj
        · next hij =>
          subst hij
          cases hj
          rw [hpi] at hq
          cases hq
          have hok := hti'.ok
          have hl : m l = calm v m l := by
            cases l with
            | main s => exact h.main s
            | static x => exact (by unfold Ok at hok; exact hok.1 x (by simp))
            | elem b k => rfl
          have hl' : ∀ m', ¬ IsElem l → calm v m' l = m l := by
            intro m' he
            cases l with
            | main s => exact (h.main s).symm
            | static x => exact (by unfold Ok at hok; exact (hok.1 x (by simp)).symm)
            | elem b k => exact absurd trivial he
          refine ⟨?_, ?_, ?_, ?_⟩
          · intro a ha
            rcases List.mem_cons.1 ha with rfl | ha
            · obtain ⟨b, hb, h1, h2⟩ := hti'.sub ⟨l :: ls, tg, f⟩ (by simp)
              refine ⟨b, hb, h1, fun r hr => h2 r ?_⟩
              simp only [Assign.places, List.mem_cons] at hr ⊢
              tauto
            · exact hti'.sub a (List.mem_cons_of_mem _ ha)
          · unfold Ok at hok ⊢
            refine ⟨fun x hx => hok.1 x (List.mem_cons_of_mem _ hx), ?_⟩
            cases tg with
            | elem b k => exact hok.2
            | static x =>
              refine ⟨⟨fun r hr => hok.2.1.1 r (List.mem_cons_of_mem _ hr), fun m' => ?_⟩, hok.2.2⟩
              rw [← hok.2.1.2 m']
              simp [hl' m' (hok.2.1.1 l (by simp))]
            | main x =>
              refine ⟨⟨fun r hr => hok.2.1.1 r (List.mem_cons_of_mem _ hr), fun m' => ?_⟩, hok.2.2⟩
              rw [← hok.2.1.2 m']
              simp [hl' m' (hok.2.1.1 l (by simp))]
          · intro a ha r hr he
            rw [← hti'.fin a ha r hr he]
            simp only [finish, List.map_cons, List.append_assoc, List.singleton_append, hl]
          · intro a ha x hx
            rcases hti'.set a ha x hx with h1 | ⟨b, hb, h1⟩
            · exact Or.inl h1
            · rcases List.mem_cons.1 hb with rfl | hb
              · exact Or.inr ⟨⟨ls, tg, f⟩, by simp, h1⟩
              · exact Or.inr ⟨b, List.mem_cons_of_mem _ hb, h1⟩
        · exact h.threads j t' q hj hq
      | nil =>
        simp only [Option.map_some, Option.some.injEq] at hs
        subst hs
        have hok := hti'.ok
        unfold Ok at hok
        have hsub : ∀ a ∈ rest, ∃ b ∈ p, a.target = b.target ∧ ∀ l ∈ a.places, l ∈ b.places :=
          fun a ha => hti'.sub a (List.mem_cons_of_mem _ ha)
        -- threads that do not step, if the memory without scalars stays and more static variables are set
        have hothers : ∀ m', (∀ x, m (.static x) = v x → m' (.static x) = v x) →
            (∀ (j : Nat) t' q, j ≠ i → ts[j]? = some t' → progs[j]? = some q → ∀ a ∈ q, ∀ l ∈ a.places, IsElem l →
              finish (calm v m') t' l = finish (calm v m) t' l) →
            ∀ (j : Nat) t' q, j ≠ i → ts[j]? = some t' → progs[j]? = some q → ThreadInv v m0 m' q t' := by
          intro m' h1 h2 j t' q hji hj hq
          have h3 := h.threads j t' q hj hq
          refine ⟨h3.sub, h3.ok.mono _ h1, fun a ha l hl he => ?_, fun a ha x hx => (h3.set a ha x hx).imp_left (h1 x)⟩
          rw [h2 j t' q hji hj hq a ha l hl he]
          exact h3.fin a ha l hl he
        have hset : ∀ a ∈ p, ∀ x, a.target = .static x → tg ≠ .static x → m (.static x) = v x ∨ ∃ b ∈ rest, b.target = .static x := by
          intro a ha x hx hne
          rcases hti'.set a ha x hx with h1 | ⟨b, hb, h1⟩
          · exact Or.inl h1
          · rcases List.mem_cons.1 hb with rfl | hb
            · exact absurd h1 hne
            · exact Or.inr ⟨b, hb, h1⟩
        have hall : ∀ m', (∀ (j : Nat) t' q, j ≠ i → ts[j]? = some t' → progs[j]? = some q → ThreadInv v m0 m' q t') →
            ThreadInv v m0 m' p ⟨[], rest⟩ →
            ∀ (j : Nat) t' q, (ts.set i ⟨[], rest⟩)[j]? = some t' → progs[j]? = some q → ThreadInv v m0 m' q t' := by
          intro m' h1 h2 j t' q hj hq
          rw [List.getElem?_set] at hj
          split at hj
          · next hij =>
            subst hij
            cases hj
            rw [hpi] at hq
            cases hq
            exact h2
          · next hij => exact h1 j t' q (fun e => hij e.symm) hj hq
        have hpm : p ∈ progs := List.mem_of_getElem? hpi
        obtain ⟨b0, hb0, htg, -⟩ := hti'.sub ⟨[], tg, f⟩ (by simp)
        simp only at htg
        cases tg with
        | elem b k =>
          have hsame : ∀ x, put m (.elem b k) (f got) (.static x) = m (.static x) := fun x => by simp [put]
          refine ⟨by simpa using h.len, fun s => ?_, fun x hx => ?_, fun l hl hw => ?_, hall (put m (.elem b k) (f got)) (hothers _ ?_ ?_) ⟨hsub, ?_, ?_, ?_⟩⟩
          · simpa [put] using h.main s
          · simp only [hsame]; exact h.kept x hx
          · have := h.same l hl hw
            simp only at this
            simp only [put]
            rw [if_neg, this]
            exact fun e => hw p hpm b0 hb0 (by rw [← htg, e])
          · exact fun x hx => (hsame x).trans hx
          · intro j t' q hji hj hq a ha l hl he
            have hnot := hap i j p q (fun e => hji e.symm) hpi hq b0 hb0 (by rw [← htg]; trivial)
            rw [← htg] at hnot
            rw [calm_elem]
            apply finish_other
            · intro e
              exact hnot a ha (e ▸ hl)
            · intro c hc e
              obtain ⟨d, hd, -, h5⟩ := (h.threads j t' q hj hq).sub c hc
              exact hnot d hd (h5 _ e)
          · exact hok.2.mono _ fun x hx => (hsame x).trans hx
          · intro a ha l hl he
            rw [← hti'.fin a ha l hl he, finish_start, calm_elem]
            simp [finish]
          · intro a ha x hx
            rw [hsame]
            exact hset a ha x hx (by simp)
        | static y =>
          have hval : f got = v y := by simpa using hok.2.1.2 m
          have hgrow : ∀ x, m (.static x) = v x → put m (.static y) (f got) (.static x) = v x := by
            intro x hx
            unfold put
            split
            · next e => cases e; exact hval
            · exact hx
          refine ⟨by simpa using h.len, fun s => ?_, fun x hx => hgrow x (h.kept x hx), fun l hl hw => ?_,
            hall (put m (.static y) (f got)) (hothers _ hgrow ?_) ⟨hsub, ?_, ?_, ?_⟩⟩
          · simpa [put] using h.main s
          · have := h.same l hl hw
            simp only at this
            simp only [put]
            rw [if_neg, this]
            rintro rfl
            exact hl
          · intro j t' q hji hj hq a ha l hl he
            rw [calm_static]
          · refine hok.2.2.mono _ fun x hx => ?_
            rcases hx with rfl | hx
            · simp [put, hval]
            · exact hgrow x hx
          · intro a ha l hl he
            rw [← hti'.fin a ha l hl he, finish_start, calm_static]
            have : put (calm v m) (.static y) (f got) = calm v m := by
              rw [hval]
              exact put_self (calm v m) (.static y)
            simp [finish, this]
          · intro a ha x hx
            by_cases hxy : x = y
            · subst hxy
              left
              simp [put, hval]
            · rcases hset a ha x hx (by simpa using fun e => hxy e.symm) with h1 | h1
              · exact Or.inl (hgrow x h1)
              · exact Or.inr h1
        | main y =>
          have hval : f got = v y := by simpa using hok.2.1.2 m
          have hm : put m (.main y) (f got) = m := by
            rw [hval, ← h.main y]
            exact put_self m _
          simp only [hm]
          refine ⟨by simpa using h.len, h.main, h.kept, h.same, hall _ (fun j t' q _ hj hq => h.threads j t' q hj hq) ⟨hsub, hok.2.2, ?_, ?_⟩⟩
          · intro a ha l hl he
            rw [← hti'.fin a ha l hl he, finish_start]
            have : put (calm v m) (.main y) (f got) = calm v m := by
              rw [hval]
              exact put_self (calm v m) (.main y)
            simp [finish, this]
          · intro a ha x hx
            exact hset a ha x hx (by simp)

theorem inv_steps (v : String → V) (m0 : Loc → V) (progs : List (List (Assign Loc V)))
    (hap : ∀ (i j : Nat) p q, i ≠ j → progs[i]? = some p → progs[j]? = some q → Apart p q) (order : List Nat) :
    ∀ st st' : (Loc → V) × List (Thread V), Inv v m0 progs st → steps order st = some st' → Inv v m0 progs st' := by
  induction order with
  | nil =>
    intro st st' h hs
    cases hs
    exact h
  | cons i order ih =>
    intro st st' h hs
    simp only [steps, List.foldlM_cons] at hs
    cases h1 : stepAt i st with
    | none => rw [h1] at hs; cases hs
    | some st1 =>
      rw [h1] at hs
      exact ih st1 st' (inv_step v m0 progs hap st st1 i h h1) hs

/-- A phase, whatever the order of the steps. -/
theorem phase_result (v : String → V) (m0 m' : Loc → V) (progs : List (List (Assign Loc V))) (order : List Nat)
    (hap : ∀ (i j : Nat) p q, i ≠ j → progs[i]? = some p → progs[j]? = some q → Apart p q)
    (hmain : ∀ s, m0 (.main s) = v s) (hok : ∀ p ∈ progs, Ok v (fun x => m0 (.static x) = v x) [] p)
    (h : phase order progs m0 = some m') :
    (∀ s, m' (.main s) = v s) ∧ (∀ x, m0 (.static x) = v x → m' (.static x) = v x) ∧
      (∀ p ∈ progs, ∀ a ∈ p, ∀ x, a.target = .static x → m' (.static x) = v x) ∧
      (∀ p ∈ progs, ∀ a ∈ p, ∀ l ∈ a.places, IsElem l → m' l = execAll (calm v m0) p l) ∧
      (∀ l, IsElem l → (∀ p ∈ progs, ∀ a ∈ p, a.target ≠ l) → m' l = m0 l) := by
  unfold phase at h
  split at h
  · cases h
  · next m1 ts hs =>
    split at h
    · next hall =>
      cases h
      have hinv := inv_steps v m0 progs hap order _ _ ?_ hs
      · have hth : ∀ p ∈ progs, ∃ t, t.rest = [] ∧ ThreadInv v m0 m' p t := by
          intro p hp
          obtain ⟨i, hi, rfl⟩ := List.getElem_of_mem hp
          have hlt : i < ts.length := by have := hinv.len; simp only at this; omega
          refine ⟨ts[i], ?_, hinv.threads i _ _ (List.getElem?_eq_getElem hlt) (List.getElem?_eq_getElem hi)⟩
          simpa using List.all_eq_true.1 hall _ (List.getElem_mem hlt)
        refine ⟨hinv.main, hinv.kept, ?_, ?_, hinv.same⟩
        · intro p hp a ha x hx
          obtain ⟨t, ht, hi⟩ := hth p hp
          rcases hi.set a ha x hx with h1 | ⟨b, hb, -⟩
          · exact h1
          · rw [ht] at hb; simp at hb
        · intro p hp a ha l hl he
          obtain ⟨t, ht, hi⟩ := hth p hp
          rw [← hi.fin a ha l hl he]
          unfold finish
          rw [ht]
          cases l with
          | elem b i => rfl
          | _ => exact absurd he id
      · refine ⟨by simp, hmain, fun x hx => hx, fun l _ _ => rfl, ?_⟩
        intro i t p ht hp
        simp only [List.getElem?_map, hp, Option.map_some, Option.some.injEq] at ht
        subst ht
        exact ⟨fun a ha => ⟨a, ha, rfl, fun l hl => hl⟩, hok p (List.mem_of_getElem? hp), fun a ha l hl he => by rw [finish_start],
          fun a ha x hx => Or.inr ⟨a, ha, hx⟩⟩
    · cases h

/-! ### Calls of the kernel function -/

theorem visible_calm (v : String → V) (m : Loc → V) (hm : ∀ s, m (.main s) = v s) : visible (calm v m) = visible m := by
  funext n
  cases n with
  | scalar s => exact (hm s).symm
  | elem a i => rfl

theorem place_calm (v : String → V) (m : Loc → V) (n : Name) : calm v m (place n) = visible (calm v m) n := by
  cases n <;> rfl

/-- Compiled assignments, as in the source. -/
theorem execAll_compiled (v : String → V) (names : List String) (l : List (Assign Name V)) (hl : ∀ a ∈ l, KeepsScalars names a) :
    ∀ m : Loc → V, ∃ m', execAll (calm v m) (l.map compiled) = calm v m' ∧ visible (calm v m') = execAll (visible (calm v m)) l := by
  induction l with
  | nil => intro m; exact ⟨m, rfl, rfl⟩
  | cons a l ih =>
    intro m
    obtain ⟨⟨x, i, ht⟩, -⟩ := hl a (by simp)
    have hr : (compiled a).reads.map (calm v m) = a.reads.map (visible (calm v m)) := by
      simp only [compiled, List.map_map]
      exact List.map_congr_left fun n _ => place_calm v m n
    obtain ⟨m', h1, h2⟩ := ih (fun b hb => hl b (List.mem_cons_of_mem _ hb)) (put m (.elem x i) (a.value (a.reads.map (visible (calm v m)))))
    refine ⟨m', ?_, ?_⟩
    · rw [List.map_cons, execAll_cons, ← h1]
      congr 1
      unfold exec
      rw [hr, calm_elem]
      simp [compiled, ht, place]
    · rw [h2, execAll_cons]
      congr 1
      unfold exec
      rw [ht, calm_elem]
      funext n
      cases n <;> simp [visible, put, calm]

variable [Inhabited V]

theorem exec_copy (v : String → V) (m : Loc → V) (a : Assign Loc V) (s : String) (h : a = copy (.static s) (.main s) ∨ a = copy (.main s) (.static s)) :
    exec (calm v m) a = calm v m := by
  rcases h with rfl | rfl
  · exact put_self (calm v m) (.static s)
  · exact put_self (calm v m) (.main s)

theorem execAll_copies (v : String → V) (m : Loc → V) (l : List (Assign Loc V))
    (h : ∀ a ∈ l, ∃ s, a = copy (.static s) (.main s) ∨ a = copy (.main s) (.static s)) : execAll (calm v m) l = calm v m := by
  induction l with
  | nil => rfl
  | cons a l ih =>
    obtain ⟨s, hs⟩ := h a (by simp)
    rw [execAll_cons, exec_copy v m a s hs]
    exact ih fun b hb => h b (List.mem_cons_of_mem _ hb)

theorem Ok.copyIn (v : String → V) (names : List String) (rest : List (Assign Loc V)) : ∀ G : String → Prop,
    Ok v (fun x => x ∈ names ∨ G x) [] rest → Ok v G [] (names.map (fun s => copy (.static s) (.main s)) ++ rest) := by
  induction names with
  | nil =>
    intro G h
    exact h.mono _ (by simp)
  | cons s names ih =>
    intro G h
    simp only [List.map_cons, List.cons_append]
    unfold Ok
    refine ⟨by simp [copy], ⟨by simp [copy, IsElem], by simp [copy, calm]⟩, ih _ (h.mono _ ?_)⟩
    intro x hx
    simp only [List.mem_cons] at hx
    tauto

theorem Ok.copyOut (v : String → V) (names : List String) (rest : List (Assign Loc V)) (G : String → Prop) (hG : ∀ s ∈ names, G s)
    (h : Ok v G [] rest) : Ok v G [] (names.map (fun s => copy (.main s) (.static s)) ++ rest) := by
  induction names with
  | nil => exact h
  | cons s names ih =>
    simp only [List.map_cons, List.cons_append]
    unfold Ok
    exact ⟨by simp [copy]; exact hG s (by simp), ⟨by simp [copy, IsElem], by simp [copy, calm]⟩, ih fun s' hs => hG s' (List.mem_cons_of_mem _ hs)⟩

omit [Inhabited V] in
theorem Ok.compiled (v : String → V) (names : List String) (l : List (Assign Name V)) (hl : ∀ a ∈ l, KeepsScalars names a) (G : String → Prop)
    (hG : ∀ s ∈ names, G s) : Ok v G [] (l.map Parallel.compiled) := by
  induction l with
  | nil => simp [Ok]
  | cons a l ih =>
    obtain ⟨⟨x, i, ht⟩, hr⟩ := hl a (by simp)
    simp only [List.map_cons]
    unfold Ok
    refine ⟨fun s hs => hG s (hr s ?_), ?_⟩
    · simp only [Parallel.compiled, List.mem_map] at hs
      obtain ⟨n, hn, e⟩ := hs
      cases n with
      | scalar s' => cases e; exact hn
      | elem b k => cases e
    · simp only [Parallel.compiled, ht, place]
      exact ih fun b hb => hl b (List.mem_cons_of_mem _ hb)

theorem place_inj {a b : Name} (h : place a = place b) : a = b := by
  cases a <;> cases b <;> simp_all [place]

omit [Inhabited V] in
theorem compiled_places (a : Assign Name V) : (compiled a).places = a.places.map place := rfl

/-- All calls, whatever the order of the steps between barriers. -/
theorem calls_result (items : List Item) (threads : Nat) (iters : List (List (Assign Name V))) (hind : iters.Pairwise Independent)
    (hk : ∀ i ∈ iters, ∀ a ∈ i, KeepsScalars (scalarNames items) a) (calls : List (List (List (List (Assign Name V))))) :
    ∀ (before : List (Assign Loc V)) (orders : List (List Nat)) (m m' : Loc → V),
      (before = [] ∨ before = copyOut items ∧ (threads = 0 ∨ ∀ s ∈ scalarNames items, m (.static s) = m (.main s))) →
      (∀ parts ∈ calls, parts.length = threads ∧ Shares iters parts) →
      runPhases orders (phases items threads before calls) m = some m' → visible m' = repeated iters calls.length (visible m) := by
  have hcopy : ∀ before : List (Assign Loc V), (before = [] ∨ before = copyOut items) →
      ∀ a ∈ before, ∃ s, a = copy (.static s) (.main s) ∨ a = copy (.main s) (.static s) := by
    rintro before (rfl | rfl) a ha
    · simp at ha
    · obtain ⟨s, -, rfl⟩ := List.mem_map.1 ha
      exact ⟨s, Or.inr rfl⟩
  have hcopyIn : ∀ a ∈ copyIn (V := V) items, ∃ s, a = copy (.static s) (.main s) ∨ a = copy (.main s) (.static s) := by
    intro a ha
    obtain ⟨s, -, rfl⟩ := List.mem_map.1 ha
    exact ⟨s, Or.inl rfl⟩
  have hscal : ∀ a : Assign Loc V, (∃ s, a = copy (.static s) (.main s) ∨ a = copy (.main s) (.static s)) → ∀ l ∈ a.places, ¬ IsElem l := by
    rintro a ⟨s, rfl | rfl⟩ l hl <;> simp [copy, Assign.places] at hl <;> rcases hl with rfl | rfl <;> exact id
  induction calls with
  | nil =>
    intro before orders m m' hb _ h
    have hb' : before = [] ∨ before = copyOut items := hb.imp_right And.left
    cases orders with
    | nil => cases h
    | cons o os =>
      simp only [phases, runPhases] at h
      cases hp : phase o (List.replicate threads before) m with
      | none => rw [hp] at h; cases h
      | some m1 =>
        rw [hp] at h
        cases os with
        | cons _ _ => cases h
        | nil =>
          cases h
          have hno : ∀ p ∈ List.replicate threads before, ∀ a ∈ p, ¬ IsElem a.target := by
            intro p hp a ha
            rw [(List.mem_replicate.1 hp).2] at ha
            exact hscal a (hcopy before hb' a ha) _ (by simp [Assign.places])
          obtain ⟨h1, -, -, -, h5⟩ := phase_result (fun s => m (.main s)) m m' _ o
            (fun i j p q _ hi _ a ha he => absurd he (hno p (List.mem_of_getElem? hi) a ha)) (fun _ => rfl)
            (by
              intro p hp
              obtain ⟨h0, rfl⟩ := List.mem_replicate.1 hp
              rcases hb with rfl | ⟨rfl, ht | hs⟩
              · simp [Ok]
              · exact absurd ht h0
              · have := Ok.copyOut (fun s => m (.main s)) (scalarNames items) [] (fun x => m (.static x) = m (.main x)) hs (by simp [Ok])
                simpa [copyOut] using this) hp
          funext n
          cases n with
          | scalar s => exact h1 s
          | elem b i => exact h5 _ trivial fun p hp a ha e => hno p hp a ha (e ▸ trivial)
  | cons parts calls ih =>
    intro before orders m m' hb hc h
    have hb' : before = [] ∨ before = copyOut items := hb.imp_right And.left
    obtain ⟨hlen, hsh⟩ := hc parts (by simp)
    have hindp : parts.flatten.Pairwise Independent := (hsh.pairwise_iff independent_symm).2 hind
    cases orders with
    | nil => cases h
    | cons o os =>
      simp only [phases, runPhases] at h
      generalize hpr : (parts.map fun p => before ++ copyIn items ++ p.flatten.map compiled) = progs at h
      cases hp : phase o progs m with
      | none => rw [hp] at h; cases h
      | some m1 =>
        rw [hp] at h
        have hprog : ∀ p ∈ progs, ∃ P ∈ parts, p = before ++ copyIn items ++ P.flatten.map compiled := by
          intro p hp
          rw [← hpr] at hp
          obtain ⟨P, hP, rfl⟩ := List.mem_map.1 hp
          exact ⟨P, hP, rfl⟩
        have hmem : ∀ (P : List (List (Assign Name V))) (a : Assign Loc V), a ∈ before ++ copyIn items ++ P.flatten.map compiled →
            (∃ s, a = copy (.static s) (.main s) ∨ a = copy (.main s) (.static s)) ∨ ∃ i ∈ P, ∃ b ∈ i, a = compiled b := by
          intro P a ha
          rcases List.mem_append.1 ha with ha | ha
          · left
            rcases List.mem_append.1 ha with ha | ha
            · exact hcopy before hb' a ha
            · exact hcopyIn a ha
          · right
            obtain ⟨b, hb, rfl⟩ := List.mem_map.1 ha
            obtain ⟨i, hi, hbi⟩ := List.mem_flatten.1 hb
            exact ⟨i, hi, b, hbi, rfl⟩
        have hapart : ∀ (i j : Nat) p q, i ≠ j → progs[i]? = some p → progs[j]? = some q → Apart p q := by
          intro i j p q hij hi hj a ha he b hb hab
          rw [← hpr, List.getElem?_map, Option.map_eq_some_iff] at hi hj
          obtain ⟨P, hP, rfl⟩ := hi
          obtain ⟨Q, hQ, rfl⟩ := hj
          rcases hmem P a ha with h1 | ⟨i1, hi1, a', ha', rfl⟩
          · exact hscal a h1 _ (by simp [Assign.places]) he
          · rcases hmem Q b hb with h2 | ⟨j1, hj1, b', hb2, rfl⟩
            · exact hscal b h2 _ hab he
            · have hR : Independent i1 j1 := by
                have hpw := (List.pairwise_flatten.1 hindp).2
                rw [List.pairwise_iff_getElem] at hpw
                obtain ⟨hilt, rfl⟩ := List.getElem?_eq_some_iff.1 hP
                obtain ⟨hjlt, rfl⟩ := List.getElem?_eq_some_iff.1 hQ
                rcases Nat.lt_or_gt_of_ne hij with hlt | hlt
                · exact hpw i j hilt hjlt hlt i1 hi1 j1 hj1
                · exact independent_symm (hpw j i hjlt hilt hlt j1 hj1 i1 hi1)
              rw [compiled_places] at hab
              obtain ⟨n, hn, e⟩ := List.mem_map.1 hab
              rw [place_inj e] at hn
              exact (hR a' ha' b' hb2).1 hn
        have hkP : ∀ P ∈ parts, ∀ a ∈ P.flatten, KeepsScalars (scalarNames items) a := by
          intro P hP a ha
          obtain ⟨i, hi, hai⟩ := List.mem_flatten.1 ha
          exact hk i (hsh.mem_iff.1 (List.mem_flatten.2 ⟨P, hP, hi⟩)) a hai
        obtain ⟨h1, -, h3, h4, h5⟩ := phase_result (fun s => m (.main s)) m m1 progs o hapart (fun _ => rfl)
          (by
            intro p hp
            obtain ⟨P, hP, rfl⟩ := hprog p hp
            have hin : ∀ G : String → Prop, Ok (fun s => m (.main s)) G [] (copyIn items ++ P.flatten.map compiled) := fun G =>
              Ok.copyIn _ _ _ G (Ok.compiled _ (scalarNames items) _ (hkP P hP) _ fun s hs => Or.inl hs)
            rcases hb with rfl | ⟨rfl, ht | hs⟩
            · exact hin _
            · subst ht
              rw [List.length_eq_zero_iff] at hlen
              subst hlen
              simp at hP
            · rw [List.append_assoc]
              exact Ok.copyOut _ _ _ _ hs (hin _)) hp
        have hvis : visible m1 = execAll (visible m) iters.flatten := by
          have hun : ∀ n, (∀ i ∈ iters, ∀ a ∈ i, a.target ≠ n) → execAll (visible m) iters.flatten n = visible m n := by
            intro n hn
            apply execAll_other
            intro a ha
            obtain ⟨i, hi, hai⟩ := List.mem_flatten.1 ha
            exact hn i hi a hai
          funext n
          cases n with
          | scalar s =>
            rw [hun _ fun i hi a ha e => by
              obtain ⟨⟨x, k, ht⟩, -⟩ := hk i hi a ha
              rw [ht] at e
              cases e]
            exact h1 s
          | elem b k =>
            by_cases hw : ∃ i ∈ iters, ∃ a ∈ i, a.target = .elem b k
            · obtain ⟨i, hi, a, ha, hat⟩ := hw
              obtain ⟨P, hP, hiP⟩ := List.mem_flatten.1 (hsh.mem_iff.2 hi)
              have haf : a ∈ P.flatten := List.mem_flatten.2 ⟨i, hiP, ha⟩
              have hpp : before ++ copyIn items ++ P.flatten.map compiled ∈ progs := by
                rw [← hpr]
                exact List.mem_map.2 ⟨P, hP, rfl⟩
              have h6 := h4 _ hpp (compiled a) (List.mem_append_right _ (List.mem_map_of_mem haf)) (.elem b k)
                (by simp [Assign.places, compiled, hat, place]) trivial
              show m1 (.elem b k) = _
              rw [h6, execAll_append, execAll_append, execAll_copies _ _ _ (hcopy before hb'), execAll_copies _ _ _ hcopyIn]
              obtain ⟨m2, h7, h8⟩ := execAll_compiled (fun s => m (.main s)) (scalarNames items) P.flatten (hkP P hP) m
              rw [h7, visible_calm _ m fun _ => rfl] at *
              rw [execAll_iteration iters (visible m) hind i hi a ha (.elem b k) (by simp [Assign.places, hat])]
              rw [← execAll_iteration P (visible m) ((List.pairwise_flatten.1 hindp).1 P hP) i hiP a ha (.elem b k) (by simp [Assign.places, hat])]
              rw [← h8]
              rfl
            · rw [hun _ fun i hi a ha e => hw ⟨i, hi, a, ha, e⟩]
              refine h5 _ trivial ?_
              intro p hp a ha e
              obtain ⟨P, hP, rfl⟩ := hprog p hp
              rcases hmem P a ha with h6 | ⟨i, hi, a', ha', rfl⟩
              · exact hscal a h6 a.target (by simp [Assign.places]) (e ▸ trivial)
              · refine hw ⟨i, hsh.mem_iff.1 (List.mem_flatten.2 ⟨P, hP, hi⟩), a', ha', ?_⟩
                exact place_inj e
        rw [List.length_cons, repeated, ← hvis]
        refine ih (copyOut items) os m1 m' (Or.inr ⟨rfl, ?_⟩) (fun q hq => hc q (List.mem_cons_of_mem _ hq)) h
        by_cases ht : threads = 0
        · exact Or.inl ht
        · right
          intro s hs
          cases parts with
          | nil => exact absurd hlen.symm ht
          | cons P parts =>
            rw [h1 s]
            refine h3 (before ++ copyIn items ++ P.flatten.map compiled) (by rw [← hpr]; simp) (copy (.static s) (.main s)) ?_ s rfl
            refine List.mem_append_left _ (List.mem_append_right _ ?_)
            exact List.mem_map.2 ⟨s, hs, rfl⟩

/-! ### All steps can be taken -/

/-- Steps left. -/
def left (ts : List (Thread V)) : Nat := (ts.map fun t => (t.rest.map fun a => a.reads.length + 1).sum).sum

omit [Inhabited V] in
theorem left_set (ts : List (Thread V)) : ∀ (i : Nat) (t t' : Thread V), ts[i]? = some t →
    (t'.rest.map fun a => a.reads.length + 1).sum + 1 = (t.rest.map fun a => a.reads.length + 1).sum → left (ts.set i t') + 1 = left ts := by
  induction ts with
  | nil => intro i t t' h; simp at h
  | cons u ts ih =>
    intro i t t' h hl
    cases i with
    | zero =>
      simp only [List.getElem?_cons_zero, Option.some.injEq] at h
      subst h
      simp only [left, List.set_cons_zero, List.map_cons, List.sum_cons]
      omega
    | succ i =>
      simp only [List.getElem?_cons_succ] at h
      have := ih i t t' h hl
      simp only [left, List.set_cons_succ, List.map_cons, List.sum_cons] at this ⊢
      omega

omit [Inhabited V] in
theorem steps_append (o o' : List Nat) (st : (Loc → V) × List (Thread V)) : steps (o ++ o') st = (steps o st).bind (steps o') := by
  unfold steps
  rw [List.foldlM_append]
  rfl

omit [Inhabited V] in
theorem steps_finish (n : Nat) : ∀ st : (Loc → V) × List (Thread V), left st.2 = n →
    ∃ order st', steps order st = some st' ∧ st'.2.all (fun t => t.rest.isEmpty) = true := by
  induction n with
  | zero =>
    intro st h
    refine ⟨[], st, rfl, List.all_eq_true.2 fun t ht => ?_⟩
    unfold left at h
    have h1 := (List.single_le_sum (by simp) _ (List.mem_map_of_mem (f := fun t : Thread V => (t.rest.map fun a => a.reads.length + 1).sum) ht)).trans_eq h
    cases hr : t.rest with
    | nil => rfl
    | cons a l => rw [hr] at h1; simp at h1
  | succ n ih =>
    intro st h
    by_cases hall : st.2.all (fun t => t.rest.isEmpty) = true
    · exact ⟨[], st, rfl, hall⟩
    · simp only [List.all_eq_true, not_forall] at hall
      obtain ⟨t, ht, hr⟩ := hall
      obtain ⟨i, hi, rfl⟩ := List.getElem_of_mem ht
      obtain ⟨st1, h1, h2⟩ : ∃ st1, stepAt i st = some st1 ∧ left st1.2 + 1 = left st.2 := by
        unfold stepAt
        have hti := List.getElem?_eq_getElem hi
        rw [hti]
        generalize st.2[i] = t at hr hti
        obtain ⟨got, rest⟩ := t
        cases rest with
        | nil => simp at hr
        | cons a rest =>
          obtain ⟨rs, p, f⟩ := a
          cases rs with
          | nil => exact ⟨_, rfl, left_set _ _ _ _ hti (by simp; omega)⟩
          | cons l ls => exact ⟨_, rfl, left_set _ _ _ _ hti (by simp; omega)⟩
      obtain ⟨order, st', h3, h4⟩ := ih st1 (by omega)
      refine ⟨i :: order, st', ?_, h4⟩
      rw [← List.singleton_append, steps_append]
      simp only [steps, List.foldlM_cons, List.foldlM_nil]
      rw [h1]
      exact h3

omit [Inhabited V] in
theorem runPhases_exists (ps : List (List (List (Assign Loc V)))) : ∀ m : Loc → V, ∃ orders m', runPhases orders ps m = some m' := by
  induction ps with
  | nil => intro m; exact ⟨[], m, rfl⟩
  | cons p ps ih =>
    intro m
    obtain ⟨o, ⟨m1, ts⟩, h1, h2⟩ := steps_finish _ (m, p.map fun p => (⟨[], p⟩ : Thread V)) rfl
    obtain ⟨os, m', h3⟩ := ih m1
    refine ⟨o :: os, m', ?_⟩
    simp only [runPhases, phase, h1]
    simp only at h2
    simp [h2, h3]

/-! ### One thread -/

omit [Inhabited V] in
theorem steps_one (order : List Nat) : ∀ (m : Loc → V) (t : Thread V) (st' : (Loc → V) × List (Thread V)), steps order (m, [t]) = some st' →
    ∃ t', st'.2 = [t'] ∧ finish st'.1 t' = finish m t := by
  induction order with
  | nil =>
    intro m t st' h
    cases h
    exact ⟨t, rfl, rfl⟩
  | cons i order ih =>
    intro m t st' h
    simp only [steps, List.foldlM_cons] at h
    cases h1 : stepAt i (m, [t]) with
    | none => rw [h1] at h; cases h
    | some st1 =>
      rw [h1] at h
      unfold stepAt at h1
      cases i with
      | succ i => simp at h1
      | zero =>
        simp only [List.getElem?_cons_zero] at h1
        obtain ⟨got, rest⟩ := t
        cases rest with
        | nil => simp [Thread.step] at h1
        | cons a rest =>
          obtain ⟨rs, p, f⟩ := a
          cases rs with
          | nil =>
            simp only [Thread.step, Option.map_some, Option.some.injEq, List.set_cons_zero] at h1
            subst h1
            obtain ⟨t', h2, h3⟩ := ih _ _ st' h
            refine ⟨t', h2, ?_⟩
            rw [h3, finish_start]
            simp [finish]
          | cons l ls =>
            simp only [Thread.step, Option.map_some, Option.some.injEq, List.set_cons_zero] at h1
            subst h1
            obtain ⟨t', h2, h3⟩ := ih _ _ st' h
            refine ⟨t', h2, ?_⟩
            rw [h3]
            simp [finish]

omit [Inhabited V] in
theorem phase_one (order : List Nat) (p : List (Assign Loc V)) (m m' : Loc → V) (h : phase order [p] m = some m') : m' = execAll m p := by
  unfold phase at h
  split at h
  · cases h
  · next m1 ts hs =>
    split at h
    · next hall =>
      cases h
      obtain ⟨t', h1, h2⟩ := steps_one order m ⟨[], p⟩ _ hs
      simp only at h1 h2
      subst h1
      rw [finish_start] at h2
      rw [← h2]
      unfold finish
      have : t'.rest = [] := by simpa using hall
      rw [this]
    · cases h

/-- The names of the kernel function. -/
def inner (m : Loc → V) (n : Name) : V := m (place n)

omit [Inhabited V] in
theorem inner_exec (m : Loc → V) (a : Assign Name V) : inner (exec m (compiled a)) = exec (inner m) a := by
  funext n
  have hr : (compiled a).reads.map m = a.reads.map (inner m) := by simp [compiled, inner, Function.comp_def]
  unfold exec
  rw [hr]
  unfold inner put
  by_cases h : n = a.target
  · rw [if_pos h, if_pos (by rw [h]; rfl)]; rfl
  · rw [if_neg h, if_neg (show ¬ place n = (compiled a).target from fun e => h (place_inj e))]

omit [Inhabited V] in
theorem inner_execAll (l : List (Assign Name V)) : ∀ m : Loc → V, inner (execAll m (l.map compiled)) = execAll (inner m) l := by
  induction l with
  | nil => intro m; rfl
  | cons a l ih =>
    intro m
    rw [List.map_cons, execAll_cons, execAll_cons, ih, inner_exec]

theorem copies_at (dst src : String → Loc) (hinj : ∀ s s', dst s = dst s' → s = s') (hne : ∀ s s', dst s ≠ src s') (names : List String) :
    ∀ (m : Loc → V), (∀ s ∈ names, execAll m (names.map fun s => copy (dst s) (src s)) (dst s) = m (src s)) ∧
      ∀ l, (∀ s ∈ names, l ≠ dst s) → execAll m (names.map fun s => copy (dst s) (src s)) l = m l := by
  induction names with
  | nil => intro m; simp [execAll]
  | cons s names ih =>
    intro m
    have h1 : ∀ l, exec m (copy (dst s) (src s)) l = if l = dst s then m (src s) else m l := fun l => rfl
    refine ⟨?_, ?_⟩
    · intro s' hs'
      rw [List.map_cons, execAll_cons]
      by_cases hm : s' ∈ names
      · rw [(ih _).1 s' hm, h1, if_neg fun e => hne s s' e.symm]
      · rcases List.mem_cons.1 hs' with rfl | hs'
        · rw [(ih _).2 _ fun s hs e => hm (by rw [hinj _ _ e]; exact hs), h1, if_pos rfl]
        · exact absurd hs' hm
    · intro l hl
      rw [List.map_cons, execAll_cons, (ih _).2 l fun s hs => hl s (List.mem_cons_of_mem _ hs), h1, if_neg (hl s (by simp))]

/-- All calls by one thread. -/
theorem calls_one (items : List Item) (iters : List (List (Assign Name V)))
    (hd : ∀ i ∈ iters, ∀ a ∈ i, Declared (scalarNames items) a) (n : Nat) :
    ∀ (before : List (Assign Loc V)) (orders : List (List Nat)) (m m' : Loc → V),
      runPhases orders (phases items 1 before (List.replicate n [iters])) m = some m' →
      visible m' = repeated iters n (visible (execAll m before)) := by
  induction n with
  | zero =>
    intro before orders m m' h
    cases orders with
    | nil => cases h
    | cons o os =>
      simp only [List.replicate_zero, phases, runPhases, List.replicate_one] at h
      cases hp : phase o [before] m with
      | none => rw [hp] at h; cases h
      | some m1 =>
        rw [hp] at h
        cases os with
        | cons _ _ => cases h
        | nil =>
          cases h
          rw [phase_one o before m m' hp]
          rfl
  | succ n ih =>
    intro before orders m m' h
    cases orders with
    | nil => cases h
    | cons o os =>
      simp only [List.replicate_succ, phases, runPhases, List.map_cons, List.map_nil] at h
      cases hp : phase o [before ++ copyIn items ++ iters.flatten.map compiled] m with
      | none => rw [hp] at h; cases h
      | some m1 =>
        rw [hp] at h
        have hm1 := phase_one _ _ _ _ hp
        rw [execAll_append, execAll_append] at hm1
        rw [ih _ os m1 m' h, repeated]
        congr 1
        generalize execAll m before = m2 at hm1 ⊢
        obtain ⟨i1, i2⟩ := copies_at .static .main (by simp) (by simp) (scalarNames items) m2
        obtain ⟨o1, o2⟩ := copies_at .main .static (by simp) (by simp) (scalarNames items) m1
        have hin : inner m1 = execAll (inner (execAll m2 (copyIn items))) iters.flatten := by rw [hm1, inner_execAll]
        have hflat : ∀ a ∈ iters.flatten, Declared (scalarNames items) a := by
          intro a ha
          obtain ⟨i, hi, hai⟩ := List.mem_flatten.1 ha
          exact hd i hi a hai
        have hmain : ∀ s, m1 (.main s) = m2 (.main s) := by
          intro s
          rw [hm1, execAll_other, copyIn, i2 _ (by simp)]
          intro a ha e
          obtain ⟨b, -, rfl⟩ := List.mem_map.1 ha
          obtain ⟨rs, tg, f⟩ := b
          cases tg <;> simp [compiled, place] at e
        have hag : ∀ q : Name, (∀ s, q = .scalar s → s ∈ scalarNames items) →
            execAll (inner (execAll m2 (copyIn items))) iters.flatten q = execAll (visible m2) iters.flatten q := by
          intro q hq
          refine execAll_congr (fun q => ∀ s, q = .scalar s → s ∈ scalarNames items) _ _ _ ?_ ?_ q hq
          · rintro a ha q hq s rfl
            exact hflat a ha s (List.mem_cons_of_mem _ hq)
          · intro q hq
            cases q with
            | scalar s => exact i1 s (hq s rfl)
            | elem b k => exact i2 _ (by simp [place])
        funext q
        cases q with
        | elem b k =>
          rw [← hag _ (by simp), ← hin]
          exact o2 _ (by simp)
        | scalar s =>
          by_cases hs : s ∈ scalarNames items
          · rw [← hag _ (by simp [hs]), ← hin]
            exact o1 s hs
          · rw [execAll_other iters.flatten _ _ fun a ha e => hs (hflat a ha s (by simp [Assign.places, e]))]
            show execAll m1 (copyOut items) (.main s) = m2 (.main s)
            rw [copyOut, o2 _ fun s' hs' e => hs (by cases e; exact hs'), hmain]

end Verif.Parallel
