import Verif.Spec.Repetitions
import Mathlib.Data.List.Forall2
import Mathlib.Tactic.Common

/-!
Lemmas on the repetitions of regions.
-/

namespace Verif.Repetitions

/-- The region whose dictionary a region uses. -/
def owner (args : List (String × Arg)) (r : String) : String := if (args.lookup r).isSome then r else ""

theorem lookup_append_some {l m : List (String × String)} {r o : String} (h : l.lookup r = some o) : (l ++ m).lookup r = some o := by
  induction l with
  | nil => simp at h
  | cons a l ih =>
    rw [List.cons_append, List.lookup_cons]
    rw [List.lookup_cons] at h
    cases ha : r == a.1 with
    | true => simpa [ha] using h
    | false => rw [ha] at h; exact ih h

theorem lookup_append_none {l m : List (String × String)} {r : String} (h : l.lookup r = none) : (l ++ m).lookup r = m.lookup r := by
  induction l with
  | nil => rfl
  | cons a l ih =>
    rw [List.cons_append, List.lookup_cons]
    rw [List.lookup_cons] at h
    cases ha : r == a.1 with
    | true => simp [ha] at h
    | false => rw [ha] at h; exact ih h

/-- After the check, all entries are right and the regions have one. -/
theorem check_owners (args : List (String × Arg)) (regions : List String) (owners res : List (String × String))
    (h0 : ∀ r o, owners.lookup r = some o → o = owner args r ∧ (argOf args r).isSome) (h1 : ∀ r, (args.lookup r).isSome → (owners.lookup r).isSome)
    (h : check owners regions = .ok res) :
    (∀ r o, res.lookup r = some o → o = owner args r ∧ (argOf args r).isSome) ∧ ∀ r ∈ regions, (res.lookup r).isSome := by
  suffices hs : (∀ r o, res.lookup r = some o → o = owner args r ∧ (argOf args r).isSome) ∧ (∀ r ∈ regions, (res.lookup r).isSome) ∧
      ∀ r o, owners.lookup r = some o → res.lookup r = some o from ⟨hs.1, hs.2.1⟩
  induction regions generalizing owners with
  | nil =>
    simp only [check, Except.ok.injEq] at h
    subst h
    exact ⟨h0, by simp, fun _ _ h => h⟩
  | cons r rs ih =>
    rw [check] at h
    split at h
    · rename_i o ho
      obtain ⟨h2, h3, h4⟩ := ih owners h0 h1 h
      refine ⟨h2, ?_, h4⟩
      intro r' hr'
      rcases List.mem_cons.1 hr' with rfl | hr'
      · simp [h4 _ _ ho]
      · exact h3 r' hr'
    · rename_i hr
      split at h
      · rename_i o ho
        have hnone : args.lookup r = none := by
          cases ha : args.lookup r with
          | none => rfl
          | some a => have := h1 r (by simp [ha]); simp [hr] at this
        have hempty := h0 "" o ho
        have hkeep : ∀ r' o', owners.lookup r' = some o' → (owners ++ [(r, o)]).lookup r' = some o' := fun r' o' h => lookup_append_some h
        obtain ⟨h2, h3, h4⟩ := ih (owners ++ [(r, o)]) (by
          intro r' o' h'
          cases hl : owners.lookup r' with
          | some o'' =>
            rw [hkeep _ _ hl] at h'
            cases h'
            exact h0 _ _ hl
          | none =>
            rw [lookup_append_none hl, List.lookup_cons] at h'
            cases he : r' == r with
            | false => simp [he] at h'
            | true =>
              have he := eq_of_beq he
              subst he
              simp only [beq_self_eq_true, Option.some.injEq] at h'
              subst h'
              refine ⟨?_, ?_⟩
              · rw [hempty.1, owner, owner, hnone]
                simp
              · have := hempty.2
                simp only [argOf, hnone, Option.none_or] at this ⊢
                simpa using this)
          (by
            intro r' hr'
            obtain ⟨o', ho'⟩ := Option.isSome_iff_exists.1 (h1 r' hr')
            simp [hkeep _ _ ho']) h
        refine ⟨h2, ?_, fun r' o' h' => h4 _ _ (hkeep _ _ h')⟩
        intro r' hr'
        rcases List.mem_cons.1 hr' with rfl | hr'
        · rw [h4 r' o (by rw [lookup_append_none hr]; simp)]
          rfl
        · exact h3 r' hr'
      · simp at h

/-- The value in the dictionary of an owner after the updates: set by the last region, if it has a counter or a variable. -/
theorem update_other (owners : List (String × String)) (calls : String → Int) (define : List (String × Int)) (regions : List String) (heap res : String → Rep)
    (h : update owners calls define regions heap = .ok res) (o : String) :
    (res o).marker = (heap o).marker ∧ (res o).var = (heap o).var ∧
    (((heap o).marker = false ∧ (heap o).var = none) → res o = heap o) ∧
    ((∀ r ∈ regions, owners.lookup r ≠ some o) → res o = heap o) := by
  induction regions generalizing heap with
  | nil =>
    simp only [update, Except.ok.injEq] at h
    subst h
    simp
  | cons r rs ih =>
    rw [update] at h
    split at h
    · simp at h
    rename_i o' ho'
    have key : ∀ v, update owners calls define rs (Function.update heap o' { heap o' with value := v }) = .ok res →
        ((heap o').marker = true ∨ (heap o').var ≠ none) →
        (res o).marker = (heap o).marker ∧ (res o).var = (heap o).var ∧ (((heap o).marker = false ∧ (heap o).var = none) → res o = heap o) ∧
        ((∀ r' ∈ r :: rs, owners.lookup r' ≠ some o) → res o = heap o) := by
      intro v hv hm
      obtain ⟨h1, h2, h3, h4⟩ := ih _ hv
      by_cases he : o = o'
      · subst he
        simp only [Function.update_self] at h1 h2
        refine ⟨h1, h2, fun hc => ?_, fun hc => absurd ho' (hc r List.mem_cons_self)⟩
        rcases hm with hm | hm
        · simp [hc.1] at hm
        · exact absurd hc.2 hm
      · rw [Function.update_of_ne he] at h1 h2 h3 h4
        exact ⟨h1, h2, h3, fun hc => h4 fun r' hr' => hc r' (List.mem_cons_of_mem _ hr')⟩
    split at h
    · rename_i hm
      exact key _ h (Or.inl hm)
    · split at h
      · rename_i x hx
        split at h
        · simp at h
        · exact key _ h (Or.inr (by simp [hx]))
      · obtain ⟨h1, h2, h3, h4⟩ := ih _ h
        exact ⟨h1, h2, h3, fun hc => h4 fun r' hr' => hc r' (List.mem_cons_of_mem _ hr')⟩

theorem update_marker (owners : List (String × String)) (calls : String → Int) (define : List (String × Int)) (regions : List String) (heap res : String → Rep)
    (h : update owners calls define regions heap = .ok res) (o : String) (hm : (heap o).marker = true) (n : Int)
    (hn : ∀ r ∈ regions, owners.lookup r = some o → calls r = n) (hr : (∃ r ∈ regions, owners.lookup r = some o) ∨ (heap o).value = some n) :
    (res o).value = some n := by
  induction regions generalizing heap with
  | nil =>
    simp only [update, Except.ok.injEq] at h
    subst h
    simpa using hr
  | cons r rs ih =>
    rw [update] at h
    split at h
    · simp at h
    rename_i o' ho'
    have hn' : ∀ r ∈ rs, owners.lookup r = some o → calls r = n := fun r hr => hn r (List.mem_cons_of_mem _ hr)
    by_cases he : o' = o
    · subst he
      rw [if_pos hm] at h
      exact ih _ h (by simpa using hm) hn' (Or.inr (by simp [hn r List.mem_cons_self ho']))
    · have hr' : (∃ r ∈ rs, owners.lookup r = some o) ∨ (heap o).value = some n := by
        rcases hr with ⟨r', hr', hr''⟩ | hr
        · rcases List.mem_cons.1 hr' with rfl | hr'
          · rw [ho'] at hr''
            exact absurd (Option.some.inj hr'') he
          · exact Or.inl ⟨r', hr', hr''⟩
        · exact Or.inr hr
      have hne : o ≠ o' := fun h => he h.symm
      split at h
      · exact ih _ h (by rwa [Function.update_of_ne hne]) hn' (by rwa [Function.update_of_ne hne])
      · split at h
        · split at h
          · simp at h
          · exact ih _ h (by rwa [Function.update_of_ne hne]) hn' (by rwa [Function.update_of_ne hne])
        · exact ih _ h hm hn' hr'

theorem update_var (owners : List (String × String)) (calls : String → Int) (define : List (String × Int)) (regions : List String) (heap res : String → Rep)
    (h : update owners calls define regions heap = .ok res) (o x : String) (hm : (heap o).marker = false) (hx : (heap o).var = some x)
    (hr : (∃ r ∈ regions, owners.lookup r = some o) ∨ ((heap o).value = define.lookup x ∧ (heap o).value ≠ none)) :
    (res o).value = define.lookup x ∧ (res o).value ≠ none := by
  induction regions generalizing heap with
  | nil =>
    simp only [update, Except.ok.injEq] at h
    subst h
    simpa using hr
  | cons r rs ih =>
    rw [update] at h
    split at h
    · simp at h
    rename_i o' ho'
    by_cases he : o' = o
    · subst he
      rw [if_neg (by simp [hm])] at h
      simp only [hx] at h
      split at h
      · simp at h
      · rename_i v hv
        exact ih _ h (by simpa using hm) (by simp) (Or.inr (by simp [hv]))
    · have hr' : (∃ r ∈ rs, owners.lookup r = some o) ∨ ((heap o).value = define.lookup x ∧ (heap o).value ≠ none) := by
        rcases hr with ⟨r', hr', hr''⟩ | hr
        · rcases List.mem_cons.1 hr' with rfl | hr'
          · rw [ho'] at hr''
            exact absurd (Option.some.inj hr'') he
          · exact Or.inl ⟨r', hr', hr''⟩
        · exact Or.inr hr
      have hne : o ≠ o' := fun h => he h.symm
      split at h
      · exact ih _ h (by rwa [Function.update_of_ne hne]) (by rwa [Function.update_of_ne hne]) (by rwa [Function.update_of_ne hne])
      · split at h
        · split at h
          · simp at h
          · exact ih _ h (by rwa [Function.update_of_ne hne]) (by rwa [Function.update_of_ne hne]) (by rwa [Function.update_of_ne hne])
        · exact ih _ h hm hx hr'

theorem lookup_owners (args : List (String × Arg)) (r : String) :
    (args.map fun a => (a.1, a.1)).lookup r = if (args.lookup r).isSome then some r else none := by
  induction args with
  | nil => rfl
  | cons a l ih =>
    rw [List.map_cons, List.lookup_cons, List.lookup_cons]
    cases ha : r == a.1 with
    | true => simp [eq_of_beq ha]
    | false => exact ih

theorem check_error (args : List (String × Arg)) (regions : List String) (owners : List (String × String))
    (h0 : ∀ r o, owners.lookup r = some o → (argOf args r).isSome) (h : ∃ r ∈ regions, argOf args r = none) : check owners regions = .error "SystemExit" := by
  induction regions generalizing owners with
  | nil => simp at h
  | cons r rs ih =>
    rw [check]
    split
    · rename_i o ho
      refine ih owners h0 ?_
      obtain ⟨r', hr', hn⟩ := h
      rcases List.mem_cons.1 hr' with rfl | hr'
      · simpa [hn] using h0 _ _ ho
      · exact ⟨r', hr', hn⟩
    · rename_i hr
      split
      · rename_i o ho
        exfalso
        obtain ⟨r', hr', hn⟩ := h
        have := h0 "" o ho
        simp only [argOf, Option.or_self] at this
        simp only [argOf, Option.or_eq_none_iff] at hn
        simp [hn.2] at this
      · rfl

theorem mapM_times {owners : List (String × String)} {heap : String → Rep} {runtime : String → ℚ} {regions : List String} {ts : List (String × ℚ)}
    (h : (regions.mapM fun r => do let t ← timePer owners heap runtime r; .ok (r, t)) = Except.ok ts) :
    ts.map Prod.fst = regions ∧ ∀ p ∈ ts, timePer owners heap runtime p.1 = .ok p.2 := by
  induction regions generalizing ts with
  | nil =>
    simp only [List.mapM_nil, pure, Except.pure, Except.ok.injEq] at h
    subst h
    simp
  | cons r rs ih =>
    simp only [List.mapM_cons, bind, Except.bind, pure, Except.pure] at h ih
    cases h1 : timePer owners heap runtime r with
    | error e => simp [h1] at h
    | ok t =>
      simp only [h1] at h
      split at h
      · simp at h
      · rename_i ts' h2
        simp only [Except.ok.injEq] at h
        subst h
        obtain ⟨h3, h4⟩ := ih h2
        refine ⟨by simp [h3], ?_⟩
        intro p hp
        rcases List.mem_cons.1 hp with rfl | hp
        · exact h1
        · exact h4 p hp

/-- The steps of a successful run. -/
theorem times_ok {useMarker : Bool} {args : List (String × Arg)} {regions : List String} {calls : String → Int} {define : List (String × Int)}
    {runtime : String → ℚ} {ts : List (String × ℚ)} (h : times useMarker args regions calls define runtime = .ok ts) :
    ∃ owners heap, (∀ r ∈ regions, owners.lookup r = some (owner args r) ∧ (argOf args r).isSome) ∧
      update owners calls define regions (fun s => ((args.lookup s).map Rep.of).getD ⟨false, none, some 1⟩) = .ok heap ∧
      ts.map Prod.fst = regions ∧ ∀ p ∈ ts, timePer owners heap runtime p.1 = .ok p.2 := by
  simp only [times, initial, bind, Except.bind] at h
  split at h
  · simp at h
  rename_i s hs
  split at hs
  · simp at hs
  simp only [Except.ok.injEq] at hs
  subst hs
  simp only at h
  split at h
  · simp at h
  rename_i owners ho
  split at h
  · simp at h
  rename_i heap hh
  obtain ⟨h1, h2⟩ := check_owners args regions _ owners (by
      intro r o h
      rw [lookup_owners] at h
      split at h
      · rename_i ha
        simp only [Option.some.injEq] at h
        subst h
        simp [owner, ha, argOf, Option.isSome_or]
      · simp at h) (by
      intro r h
      simp [lookup_owners, h]) ho
  obtain ⟨h3, h4⟩ := mapM_times h
  refine ⟨owners, heap, ?_, hh, h3, h4⟩
  intro r hr
  obtain ⟨o, ho⟩ := Option.isSome_iff_exists.1 (h2 r hr)
  rw [ho, (h1 r o ho).1]
  exact ⟨rfl, (h1 r o ho).2⟩

theorem lookup_owner (args : List (String × Arg)) (r : String) : args.lookup (owner args r) = argOf args r := by
  rw [owner, argOf]
  cases h : args.lookup r <;> simp [h]

end Verif.Repetitions
