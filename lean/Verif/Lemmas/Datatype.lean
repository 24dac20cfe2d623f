import Verif.Model.Datatype
import Verif.Spec.Datatype

/-!
Lemmas for C129.
-/

namespace Verif.Datatype

variable {δ : Type}

theorem lookup_supported (t : Ty) : (∃ n, sizes.lookup t = some n) ↔ Supported t := by
  constructor
  · rintro ⟨n, h⟩
    simp only [sizes, List.lookup] at h
    split at h
    · rename_i e
      exact ⟨"double", Or.inr rfl, Or.inr (by simpa using e)⟩
    split at h
    · rename_i e
      exact ⟨"float", Or.inl rfl, Or.inr (by simpa using e)⟩
    split at h
    · rename_i e
      exact ⟨"double", Or.inr rfl, Or.inl (by simpa using e)⟩
    split at h
    · rename_i e
      exact ⟨"float", Or.inl rfl, Or.inl (by simpa using e)⟩
    cases h
  · rintro ⟨b, rfl | rfl, rfl | rfl⟩
    exacts [⟨4, by decide⟩, ⟨8, by decide⟩, ⟨8, by decide⟩, ⟨16, by decide⟩]

theorem lookup_bytes (t : Ty) (h : Supported t) : sizes.lookup t = some (bytes t) := by
  obtain ⟨b, rfl | rfl, rfl | rfl⟩ := h <;> decide

theorem lookup_put {β : Type} (k : String) (v : β) (l : List (String × β)) (k' : String) :
    (put k v l).lookup k' = if k' = k then some v else l.lookup k' := by
  induction l with
  | nil =>
    simp only [put, List.lookup]
    by_cases h : k' = k
    · simp [h]
    · rw [if_neg h, beq_false_of_ne h]
  | cons e l ih =>
    obtain ⟨k1, v1⟩ := e
    unfold put
    split
    · rename_i h
      subst h
      simp only [List.lookup]
      by_cases h : k' = k1
      · simp [h]
      · rw [if_neg h, beq_false_of_ne h]
    · rename_i h
      simp only [List.lookup]
      by_cases h' : k' = k1
      · subst h'
        simp [h]
      · have : (k' == k1) = false := by simpa using h'
        simp only [this, ih]

theorem mem_put {β : Type} (k : String) (v : β) (l : List (String × β)) (e : String × β) (h : e ∈ put k v l) : e = (k, v) ∨ e ∈ l := by
  induction l with
  | nil =>
    left
    simpa [put] using h
  | cons a l ih =>
    obtain ⟨k1, v1⟩ := a
    unfold put at h
    split at h
    · rcases List.mem_cons.1 h with h | h
      · exact Or.inl h
      · exact Or.inr (by simp [h])
    · rcases List.mem_cons.1 h with h | h
      · exact Or.inr (by simp [h])
      · exact (ih h).imp id fun h => by simp [h]

/-- All variables have the datatype. -/
def Uniform (s : State δ) : Prop := (∀ v ∈ s.vars, s.datatype = some v.2.1) ∧ (s.datatype.isSome → s.vars ≠ [])

theorem put_ne_nil {β : Type} (k : String) (v : β) (l : List (String × β)) : put k v l ≠ [] := by
  cases l with
  | nil => simp [put]
  | cons a l =>
    obtain ⟨k1, v1⟩ := a
    unfold put
    split <;> simp

theorem set_spec (s : State δ) (d : String × Ty × Option δ) (hu : Uniform s) :
    (∀ s', setVariable s d = .ok s' → Uniform s' ∧ s'.datatype = some d.2.1 ∧ s'.vars = put d.1 d.2 s.vars) ∧
    ((∃ s', setVariable s d = .ok s') ↔ Supported d.2.1 ∧ (s.datatype = none ∨ s.datatype = some d.2.1)) := by
  rw [← lookup_supported]
  unfold setVariable
  cases hl : sizes.lookup d.2.1 with
  | none => simp
  | some n =>
    simp only [Option.isNone_some, Bool.false_eq_true, if_false]
    cases hd : s.datatype with
    | none =>
      simp only [Except.ok.injEq, true_or, and_true]
      refine ⟨?_, by simp⟩
      rintro s' rfl
      refine ⟨⟨fun v hv => ?_, fun _ => put_ne_nil _ _ _⟩, rfl, rfl⟩
      rcases mem_put _ _ _ _ hv with rfl | hv
      · rfl
      · exact absurd (hu.1 v hv) (by simp [hd])
    | some t =>
      by_cases ht : d.2.1 = t
      · simp only [ht, if_true, Except.ok.injEq, or_true, and_true]
        refine ⟨?_, by simp⟩
        rintro s' rfl
        refine ⟨⟨fun v hv => ?_, fun _ => put_ne_nil _ _ _⟩, rfl, rfl⟩
        rcases mem_put _ _ _ _ hv with rfl | hv
        · simp [ht]
        · exact hd ▸ hu.1 v hv
      · have : ¬ (some t = some d.2.1) := fun h => ht (Option.some.inj h).symm
        simp [ht, this]

theorem fold_spec (ds : List (String × Ty × Option δ)) (s : State δ) (hu : Uniform s) :
    (∀ s', ds.foldlM setVariable s = .ok s' → Uniform s' ∧ (∀ d ∈ ds, s'.datatype = some d.2.1) ∧ (∀ t, s.datatype = some t → s'.datatype = some t) ∧
      s'.vars = ds.foldl (fun l d => put d.1 d.2 l) s.vars) ∧
    ((∃ s', ds.foldlM setVariable s = .ok s') ↔ ∃ t, (s.datatype = none ∨ s.datatype = some t) ∧ ∀ d ∈ ds, d.2.1 = t ∧ Supported t) := by
  induction ds generalizing s with
  | nil =>
    simp only [List.foldlM_nil, pure, Except.pure, Except.ok.injEq]
    refine ⟨by rintro s' rfl; exact ⟨hu, by simp, fun _ h => h, rfl⟩, ?_⟩
    simp only [exists_eq', List.not_mem_nil, false_implies, implies_true, and_true, true_iff]
    cases s.datatype with
    | none => exact ⟨[], Or.inl rfl⟩
    | some t => exact ⟨t, Or.inr rfl⟩
  | cons d ds ih =>
    obtain ⟨h1, h2⟩ := set_spec s d hu
    rw [List.foldlM_cons]
    cases hs : setVariable s d with
    | error e =>
      simp only [bind, Except.bind, reduceCtorEq, false_implies, implies_true, exists_false, true_and, false_iff, not_exists, not_and]
      intro t ht hd
      have : ∃ s', setVariable s d = .ok s' := h2.2 ⟨(hd d (by simp)).1 ▸ (hd d (by simp)).2, by rw [(hd d (by simp)).1]; exact ht⟩
      rw [hs] at this
      simp at this
    | ok s1 =>
      obtain ⟨hu1, hd1, hv1⟩ := h1 s1 hs
      obtain ⟨h3, h4⟩ := h2.1 ⟨s1, hs⟩
      obtain ⟨ih1, ih2⟩ := ih s1 hu1
      simp only [bind, Except.bind]
      refine ⟨fun s' hs' => ?_, ?_⟩
      · obtain ⟨g1, g2, g3, g4⟩ := ih1 s' hs'
        refine ⟨g1, ?_, ?_, by rw [g4, hv1]; rfl⟩
        · intro x hx
          rcases List.mem_cons.1 hx with rfl | hx
          · exact g3 _ hd1
          · exact g2 x hx
        · intro t ht
          rcases h4 with h4 | h4
          · rw [h4] at ht
            cases ht
          · rw [h4] at ht
            exact g3 _ (hd1.trans ht)
      · rw [ih2]
        constructor
        · rintro ⟨t, ht, hds⟩
          rw [hd1] at ht
          have ht : d.2.1 = t := by simpa using ht
          subst ht
          refine ⟨_, h4, fun x hx => ?_⟩
          rcases List.mem_cons.1 hx with rfl | hx
          · exact ⟨rfl, h3⟩
          · exact hds x hx
        · rintro ⟨t, -, hds⟩
          exact ⟨t, Or.inr (by rw [hd1, (hds d (by simp)).1]), fun x hx => hds x (by simp [hx])⟩

theorem check_uniform (s : State δ) (hu : Uniform s) : check s = .ok () := by
  unfold check
  rw [if_pos]
  have h : ∀ x ∈ (s.vars.map fun v => v.2.1).dedup, ∀ y ∈ (s.vars.map fun v => v.2.1).dedup, x = y := by
    intro x hx y hy
    rw [List.mem_dedup, List.mem_map] at hx hy
    obtain ⟨v, hv, rfl⟩ := hx
    obtain ⟨w, hw, rfl⟩ := hy
    exact Option.some.inj ((hu.1 v hv).symm.trans (hu.1 w hw))
  have hn := List.nodup_dedup (s.vars.map fun v => v.2.1)
  generalize (s.vars.map fun v => v.2.1).dedup = l at h hn
  rcases l with _ | ⟨a, _ | ⟨b, l⟩⟩
  · simp
  · simp
  · exfalso
    have := h a (by simp) b (by simp)
    simp [this] at hn

theorem lookup_fold (ds : List (String × Ty × Option δ)) (l : List (String × Ty × Option δ)) (as bs : List (String × Ty × Option δ)) (d : String × Ty × Option δ)
    (h : ds = as ++ d :: bs) (hb : ∀ e ∈ bs, e.1 ≠ d.1) : (ds.foldl (fun l d => put d.1 d.2 l) l).lookup d.1 = some d.2 := by
  subst h
  rw [List.foldl_append, List.foldl_cons]
  have hl := lookup_put d.1 d.2 (as.foldl (fun l d => put d.1 d.2 l) l) d.1
  rw [if_pos rfl] at hl
  generalize put d.1 d.2 (as.foldl (fun l d => put d.1 d.2 l) l) = l1 at hl ⊢
  clear as l
  induction bs generalizing l1 with
  | nil => exact hl
  | cons e bs ih =>
    rw [List.foldl_cons]
    refine ih (fun x hx => hb x (by simp [hx])) _ ?_
    rw [lookup_put, if_neg (Ne.symm (hb e (by simp))), hl]

theorem lookup_fold_none (ds : List (String × Ty × Option δ)) (l : List (String × Ty × Option δ)) (n : String) (h : ∀ d ∈ ds, d.1 ≠ n) :
    (ds.foldl (fun l d => put d.1 d.2 l) l).lookup n = l.lookup n := by
  induction ds generalizing l with
  | nil => rfl
  | cons d ds ih =>
    rw [List.foldl_cons, ih _ fun x hx => h x (by simp [hx]), lookup_put, if_neg (Ne.symm (h d (by simp)))]

theorem uniform_init : Uniform ({} : State δ) := ⟨by simp, by simp⟩

theorem describe_eq (ds : List (String × Ty × Option δ)) : describe ds = if ds = [] then .error "IndexError" else declare ds := by
  obtain ⟨h1, -⟩ := fold_spec ds {} uniform_init
  unfold describe declare
  cases hf : ds.foldlM setVariable {} with
  | error e =>
    rw [if_neg]
    rintro rfl
    simp [pure, Except.pure] at hf
  | ok s =>
    obtain ⟨g1, g2, -, g4⟩ := h1 s hf
    cases ds with
    | nil =>
      simp only [List.foldlM_nil, pure, Except.pure, Except.ok.injEq] at hf
      subst hf
      rfl
    | cons d ds =>
      have hd := g2 d (by simp)
      have hne := g1.2 (by simp [hd])
      simp only [reduceCtorEq, if_false]
      cases hv : s.vars with
      | nil => exact absurd hv hne
      | cons v vs =>
        have := g1.1 v (by simp [hv])
        have hs : ({ s with datatype := some v.2.1 } : State δ) = s := by
          rw [← this]
        have hs' : ({ datatype := some v.2.1, vars := v :: vs } : State δ) = s := by
          rw [← hv]
          exact hs
        simp only [hs']

theorem declare_eq (ds : List (String × Ty × Option δ)) : declare ds = ds.foldlM setVariable {} := by
  obtain ⟨h1, -⟩ := fold_spec ds {} uniform_init
  unfold declare
  cases hf : ds.foldlM setVariable {} with
  | error e => rfl
  | ok s => simp only [check_uniform s (h1 s hf).1]

end Verif.Datatype
