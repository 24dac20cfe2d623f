import Verif.Model.Regions
import Verif.Spec.Regions
import Verif.Lemmas.Analyzer

/-!
Lemmas on the regions that are measured.
-/

namespace Verif.Regions

open Verif.Analyzer

variable {α β γ δ : Type}

/-- The argument for a request. -/
def Request.arg : Request → Arg
  | .program => .absent
  | .all => .alone
  | .named ns => .text (commas ns)

theorem splitOn_commas (ns : List (List Char)) (h : ns ≠ []) (hn : ∀ n ∈ ns, ',' ∉ n) : splitOn ',' (commas ns) = ns := by
  induction ns with
  | nil => exact absurd rfl h
  | cons n ns ih =>
    cases ns with
    | nil => exact splitOn_line ',' n (hn n (by simp))
    | cons m ns => rw [commas, splitOn_append ',' n _ (hn n (by simp)), ih (by simp) fun x hx => hn x (by simp [hx])]

theorem commas_ne (ns : List (List Char)) (h : ns ≠ []) (h' : ns ≠ [[]]) : commas ns ≠ [] := by
  match ns with
  | [] => exact absurd rfl h
  | [n] =>
    intro e
    simp only [commas] at e
    exact h' (by rw [e])
  | n :: m :: ns => simp [commas]

theorem regionSet_nodup (l : List (List Char)) : (regionSet l).Nodup := by
  unfold regionSet
  simp only
  split
  · exact (List.nodup_dedup l).filter _
  · exact List.nodup_dedup l

theorem mem_regionSet (l : List (List Char)) (r : List Char) : r ∈ regionSet l ↔ r ∈ l ∧ (r ≠ [] ∨ ∀ x ∈ l, x = []) := by
  unfold regionSet
  simp only
  split
  · next h =>
    simp only [ne_eq, decide_not, List.mem_filter, List.mem_dedup, Bool.not_eq_true', decide_eq_false_iff_not]
    refine and_congr_right fun _ => ⟨.inl, ?_⟩
    rintro (h1 | h1)
    · exact h1
    · exfalso
      have hs : ∀ x ∈ l.dedup, x = [] := fun x hx => h1 x (List.mem_dedup.1 hx)
      have hd := List.nodup_dedup l
      match hl : l.dedup, hs, hd, h with
      | [], _, _, h => simp at h
      | [a], _, _, h => simp at h
      | a :: b :: _, hs, hd, _ =>
        have h1 := hs a (by simp)
        have h2 := hs b (by simp)
        simp [h1, h2] at hd
  · next h =>
    rw [List.mem_dedup]
    refine ⟨fun hr => ⟨hr, ?_⟩, fun h => h.1⟩
    by_cases hr0 : r = []
    · right
      intro x hx
      have hx' := List.mem_dedup.2 hx
      have hr' := List.mem_dedup.2 hr
      match hl : l.dedup with
      | [] => rw [hl] at hx'; simp at hx'
      | [a] =>
        rw [hl] at hx' hr'
        simp only [List.mem_singleton] at hx' hr'
        rw [hx', ← hr', hr0]
      | a :: b :: _ => rw [hl] at h; simp at h
    · exact .inl hr0

theorem regionSet_ne (l : List (List Char)) (h : l ≠ []) : regionSet l ≠ [] := by
  intro e
  by_cases hall : ∀ x ∈ l, x = []
  · obtain ⟨a, ha⟩ := List.exists_mem_of_ne_nil l h
    have := (mem_regionSet l a).2 ⟨ha, .inr hall⟩
    rw [e] at this
    simp at this
  · push Not at hall
    obtain ⟨a, ha, hne⟩ := hall
    have := (mem_regionSet l a).2 ⟨ha, .inl hne⟩
    rw [e] at this
    simp at this

theorem lookup_append (d : List (List Char × α)) (r : List Char) (v : α) (h : d.lookup r = none) (x : List Char) :
    (d ++ [(r, v)]).lookup x = if x = r then some v else d.lookup x := by
  rw [List.lookup_append]
  by_cases hx : x = r
  · subst hx
    simp [h]
  · have : (x == r) = false := by simpa using hx
    simp [hx, List.lookup, this]

theorem fill_ok_iff (d : List (List Char × α)) (r : List Char) : (∃ d', fill d r = .ok d') ↔ (given d r).isSome := by
  unfold fill given
  cases h1 : d.lookup r with
  | some v => simp
  | none =>
    cases h2 : d.lookup [] with
    | some v => simp
    | none => simp

theorem fill_spec (d d' : List (List Char × α)) (r : List Char) (h : fill d r = .ok d') :
    d'.lookup r = given d r ∧ (∀ x, given d' x = given d x) ∧ ∀ x v, d.lookup x = some v → d'.lookup x = some v := by
  unfold fill at h
  cases h1 : d.lookup r with
  | some v =>
    rw [h1] at h
    simp only [Except.ok.injEq] at h
    subst h
    exact ⟨by simp [given, h1], fun _ => rfl, fun _ _ h => h⟩
  | none =>
    rw [h1] at h
    cases h2 : d.lookup [] with
    | none => rw [h2] at h; simp at h
    | some v =>
      rw [h2] at h
      simp only [Except.ok.injEq] at h
      subst h
      have hr : r ≠ [] := fun e => by rw [e, h2] at h1; cases h1
      refine ⟨?_, fun x => ?_, fun x w hw => ?_⟩
      · rw [lookup_append d r v h1]
        simp [given, h1, h2]
      · unfold given
        rw [lookup_append d r v h1, lookup_append d r v h1, if_neg hr.symm]
        split
        · next e => rw [e, h1, h2]; rfl
        · rfl
      · rw [lookup_append d r v h1, if_neg, hw]
        rintro rfl
        rw [hw] at h1
        cases h1

/-- Everything is known about a region. -/
def Known (i : Info α β γ) (r : List Char) : Prop :=
  (given i.loops r).isSome ∧ (given i.repetitions r).isSome ∧ (given i.flops r).isSome

instance (i : Info α β γ) (r : List Char) : Decidable (Known i r) := by
  unfold Known
  infer_instance

theorem check_ok_iff (rs : List (List Char)) : ∀ i : Info α β γ, (∃ j, check i rs = .ok j) ↔ ∀ r ∈ rs, Known i r := by
  induction rs with
  | nil => intro i; simp [check]
  | cons r rs ih =>
    intro i
    simp only [check, bind, Except.bind, List.mem_cons, forall_eq_or_imp]
    unfold Known
    rw [← fill_ok_iff, ← fill_ok_iff, ← fill_ok_iff]
    cases h1 : fill i.loops r with
    | error e => simp
    | ok l =>
      cases h2 : fill i.repetitions r with
      | error e => simp
      | ok n =>
        cases h3 : fill i.flops r with
        | error e => simp
        | ok f =>
          simp only [ih, Except.ok.injEq, exists_eq', true_and]
          unfold Known
          simp only [(fill_spec _ _ _ h1).2.1, (fill_spec _ _ _ h2).2.1, (fill_spec _ _ _ h3).2.1]

theorem check_spec (rs : List (List Char)) : ∀ i j : Info α β γ, check i rs = .ok j →
    (∀ r ∈ rs, j.loops.lookup r = given i.loops r ∧ j.repetitions.lookup r = given i.repetitions r ∧ j.flops.lookup r = given i.flops r) ∧
    (∀ x, given j.loops x = given i.loops x ∧ given j.repetitions x = given i.repetitions x ∧ given j.flops x = given i.flops x) ∧
    (∀ x v, i.loops.lookup x = some v → j.loops.lookup x = some v) ∧
    (∀ x v, i.repetitions.lookup x = some v → j.repetitions.lookup x = some v) ∧
    (∀ x v, i.flops.lookup x = some v → j.flops.lookup x = some v) := by
  induction rs with
  | nil =>
    intro i j h
    simp only [check, Except.ok.injEq] at h
    subst h
    simp
  | cons r rs ih =>
    intro i j h
    simp only [check, bind, Except.bind] at h
    cases h1 : fill i.loops r with
    | error e => rw [h1] at h; simp at h
    | ok l =>
      cases h2 : fill i.repetitions r with
      | error e => rw [h1, h2] at h; simp at h
      | ok n =>
        cases h3 : fill i.flops r with
        | error e => rw [h1, h2, h3] at h; simp at h
        | ok f =>
          rw [h1, h2, h3] at h
          obtain ⟨a1, a2, a3⟩ := fill_spec _ _ _ h1
          obtain ⟨b1, b2, b3⟩ := fill_spec _ _ _ h2
          obtain ⟨c1, c2, c3⟩ := fill_spec _ _ _ h3
          obtain ⟨i1, i2, i3, i4, i5⟩ := ih _ _ h
          have hk := (check_ok_iff (r :: rs) i).1 ⟨j, by simp only [check, bind, Except.bind, h1, h2, h3, h]⟩ r (by simp)
          refine ⟨?_, fun x => ?_, fun x v hv => i3 x v (a3 x v hv), fun x v hv => i4 x v (b3 x v hv), fun x v hv => i5 x v (c3 x v hv)⟩
          · intro x hx
            rcases List.mem_cons.1 hx with rfl | hx
            · obtain ⟨k1, k2, k3⟩ := hk
              obtain ⟨u1, e1⟩ := Option.isSome_iff_exists.1 k1
              obtain ⟨u2, e2⟩ := Option.isSome_iff_exists.1 k2
              obtain ⟨u3, e3⟩ := Option.isSome_iff_exists.1 k3
              rw [e1, e2, e3]
              exact ⟨i3 x u1 (a1.trans e1), i4 x u2 (b1.trans e2), i5 x u3 (c1.trans e3)⟩
            · obtain ⟨q1, q2, q3⟩ := i1 x hx
              exact ⟨q1.trans (a2 x), q2.trans (b2 x), q3.trans (c2 x)⟩
          · obtain ⟨q1, q2, q3⟩ := i2 x
            exact ⟨q1.trans (a2 x), q2.trans (b2 x), q3.trans (c2 x)⟩

/-- One measured region. -/
def one (i : Info α β γ) (runtime : List (List Char × δ)) (r : List Char) : Except String (Measured α β γ δ) := do
  let t ← get runtime r
  let l ← get i.loops r
  let n ← get i.repetitions r
  let f ← get i.flops r
  .ok ⟨r, l, n, f, t⟩

theorem get_ok {d : List (List Char × δ)} {r : List Char} {v : δ} : get d r = .ok v ↔ d.lookup r = some v := by
  unfold get
  cases d.lookup r <;> simp

theorem one_ok_iff (i : Info α β γ) (runtime : List (List Char × δ)) (r : List Char) (m : Measured α β γ δ) :
    one i runtime r = .ok m ↔ m.region = r ∧ runtime.lookup r = some m.runtime ∧ i.loops.lookup r = some m.loops ∧
      i.repetitions.lookup r = some m.repetitions ∧ i.flops.lookup r = some m.flops := by
  unfold one get
  obtain ⟨a, b, c, d, e⟩ := m
  cases h1 : runtime.lookup r <;> cases h2 : i.loops.lookup r <;> cases h3 : i.repetitions.lookup r <;> cases h4 : i.flops.lookup r <;>
    simp [bind, Except.bind]
  constructor
  · rintro ⟨rfl, rfl, rfl, rfl, rfl⟩; simp
  · rintro ⟨rfl, rfl, rfl, rfl, rfl⟩; simp

theorem mapM_ok {ε ι κ : Type} (f : ι → Except ε κ) (l : List ι) (out : List κ) : l.mapM f = .ok out ↔ List.Forall₂ (fun x y => f x = .ok y) l out := by
  induction l generalizing out with
  | nil => simp [pure, Except.pure, eq_comm]
  | cons x l ih =>
    simp only [List.mapM_cons, bind, Except.bind]
    cases hx : f x with
    | error e =>
      simp only [List.forall₂_cons_left_iff, reduceCtorEq, false_iff, not_exists]
      rintro y ys ⟨h, _⟩
      rw [hx] at h
      simp at h
    | ok y =>
      cases hl : l.mapM f with
      | error e =>
        simp only [List.forall₂_cons_left_iff, reduceCtorEq, false_iff, not_exists]
        rintro z zs ⟨h, h2, _⟩
        have := (ih zs).2 h2
        rw [hl] at this
        simp at this
      | ok ys =>
        simp only [pure, Except.pure, Except.ok.injEq, List.forall₂_cons_left_iff]
        constructor
        · rintro rfl
          exact ⟨y, ys, hx, (ih ys).1 hl, rfl⟩
        · rintro ⟨z, zs, h1, h2, rfl⟩
          rw [hx, Except.ok.injEq] at h1
          have := (ih zs).2 h2
          rw [hl, Except.ok.injEq] at this
          rw [h1, this]

theorem measured_eq (arg : Arg) (i : Info α β γ) (found : List (List Char)) (runtime : List (List Char × δ)) :
    measured arg i found runtime = (do
      let i ← check i (regionSet (parseMarkers arg).2)
      let p ← if regionSet (parseMarkers arg).2 = [] then (do
          let i ← check i (regionSet found)
          .ok (regionSet found, i))
        else if (regionSet (parseMarkers arg).2).all (found.contains ·) then .ok (regionSet (parseMarkers arg).2, i) else .error "SystemExit"
      p.1.mapM (one p.2 runtime)) := rfl

/-- Names without commas, and not just the empty text. -/
def Request.Proper : Request → Prop
  | .named ns => ns ≠ [] ∧ ns ≠ [[]] ∧ ∀ n ∈ ns, ',' ∉ n
  | _ => True

/-- How a request is treated: the regions, without repetitions, are those wanted; without one in the output, or without values, the program ends. -/
theorem treated (q : Request) (hq : q.Proper) (i : Info α β γ) (found : List (List Char)) (runtime : List (List Char × δ)) :
    ∃ rs : List (List Char), rs.Nodup ∧ (∀ r, r ∈ rs ↔ q.Wanted found r) ∧
      if (∀ r ∈ rs, r ∈ found) ∧ ∀ r ∈ rs, Known i r then
        ∃ j, check i rs = .ok j ∧ measured q.arg i found runtime = rs.mapM (one j runtime)
      else measured q.arg i found runtime = .error "SystemExit" := by
  have hexit : ∀ (rs : List (List Char)) (i : Info α β γ) e, check i rs = .error e → e = "SystemExit" := by
    intro rs
    have hf : ∀ {κ : Type} (d : List (List Char × κ)) r e, fill d r = .error e → e = "SystemExit" := by
      intro κ d r e h
      unfold fill at h
      split at h
      · simp at h
      · split at h
        · simp at h
        · simpa using h.symm
    induction rs with
    | nil => intro i e h; simp [check] at h
    | cons r rs ih =>
      intro i e h
      simp only [check, bind, Except.bind] at h
      cases h1 : fill i.loops r with
      | error e1 => rw [h1] at h; simp only [Except.error.injEq] at h; exact h ▸ hf _ _ _ h1
      | ok l =>
        cases h2 : fill i.repetitions r with
        | error e1 => rw [h1, h2] at h; simp only [Except.error.injEq] at h; exact h ▸ hf _ _ _ h2
        | ok n =>
          cases h3 : fill i.flops r with
          | error e1 => rw [h1, h2, h3] at h; simp only [Except.error.injEq] at h; exact h ▸ hf _ _ _ h3
          | ok f => rw [h1, h2, h3] at h; exact ih _ e h
  have hnamed : ∀ (a : Arg) (ns : List (List Char)), (parseMarkers a).2 = ns → ns ≠ [] →
      if (∀ r ∈ regionSet ns, r ∈ found) ∧ ∀ r ∈ regionSet ns, Known i r then
        ∃ j, check i (regionSet ns) = .ok j ∧ measured a i found runtime = (regionSet ns).mapM (one j runtime)
      else measured a i found runtime = .error "SystemExit" := by
    intro a ns ha hne
    rw [measured_eq, ha]
    simp only [if_neg (regionSet_ne ns hne), bind, Except.bind]
    by_cases hk : ∀ r ∈ regionSet ns, Known i r
    · obtain ⟨j, hj⟩ := (check_ok_iff _ i).2 hk
      rw [hj]
      by_cases hfd : ∀ r ∈ regionSet ns, r ∈ found
      · rw [if_pos ⟨hfd, hk⟩]
        refine ⟨j, rfl, ?_⟩
        have : (regionSet ns).all (found.contains ·) = true := by simpa using hfd
        simp only [this, if_true]
      · rw [if_neg fun h => hfd h.1]
        have : ¬ (regionSet ns).all (found.contains ·) = true := by simpa using hfd
        simp only [if_neg this]
    · rw [if_neg fun h => hk h.2]
      cases hc : check i (regionSet ns) with
      | ok j => exact absurd ((check_ok_iff _ i).1 ⟨j, hc⟩) hk
      | error e => simp [hexit _ _ _ hc]
  cases q with
  | program =>
    refine ⟨regionSet [[]], regionSet_nodup _, fun r => ?_, hnamed .absent [[]] rfl (by simp)⟩
    rw [mem_regionSet]
    simp [Request.Wanted]
  | named ns =>
    obtain ⟨h1, h2, h3⟩ := hq
    refine ⟨regionSet ns, regionSet_nodup _, fun r => mem_regionSet ns r, hnamed (.text (commas ns)) ns ?_ h1⟩
    simp only [parseMarkers, if_neg (commas_ne ns h1 h2)]
    exact splitOn_commas ns h1 h3
  | all =>
    refine ⟨regionSet found, regionSet_nodup _, fun r => mem_regionSet found r, ?_⟩
    have hfd : ∀ r ∈ regionSet found, r ∈ found := fun r hr => ((mem_regionSet found r).1 hr).1
    have he : regionSet ([] : List (List Char)) = [] := by decide
    simp only [Request.arg, measured_eq, parseMarkers, he, check, bind, Except.bind, if_true]
    by_cases hk : ∀ r ∈ regionSet found, Known i r
    · rw [if_pos ⟨hfd, hk⟩]
      obtain ⟨j, hj⟩ := (check_ok_iff _ i).2 hk
      exact ⟨j, hj, by rw [hj]⟩
    · rw [if_neg fun h => hk h.2]
      cases hc : check i (regionSet found) with
      | ok j => exact absurd ((check_ok_iff _ i).1 ⟨j, hc⟩) hk
      | error e => simp [hexit _ _ _ hc]

end Verif.Regions
