import Verif.Model.Readout

/-!
Lemmas on memoised readouts.
-/

namespace Verif.Readout

variable {α : Type}

/-- The dictionary of the memory hierarchy. -/
def hier (h : α) : Dict α := fun k => if k = "memory hierarchy" then some h else none

/-- Memoised objects have the contents that the functions return; the object without an argument may also have the memory hierarchy. -/
structure Inv (env : Machine α) (s : State α) : Prop where
  named : ∀ p a, s.r = some (some p, a) → ∃ d, env.readouts p = .ok d ∧ s.heap[a]? = some d
  bare : ∀ a, s.r = some (none, a) → ∃ d, env.readouts cpuinfo = .ok d ∧
    (s.heap[a]? = some d ∨ ∃ h, env.hierarchy true d = .ok h ∧ s.heap[a]? = some (upd d (hier h)))
  hierarchy : ∀ k a, s.m = some (k, a) → ∃ d h, env.readouts (k.2.getD cpuinfo) = .ok d ∧ env.hierarchy (k.1.getD true) d = .ok h ∧ s.heap[a]? = some (hier h)
  apart : ∀ k a k' b, s.r = some (k, a) → s.m = some (k', b) → a ≠ b

theorem Inv.init (env : Machine α) : Inv env {} := ⟨by simp, by simp, by simp, by simp⟩

/-- The contents of the object of the bare call. -/
def Bare (env : Machine α) (d c : Dict α) : Prop := c = d ∨ ∃ h, env.hierarchy true d = .ok h ∧ c = upd d (hier h)

theorem getElem?_append {β : Type} (l : List β) (x y : β) (a : Nat) (h : l[a]? = some y) : (l ++ [x])[a]? = some y := by
  obtain ⟨hl, -⟩ := List.getElem?_eq_some_iff.1 h
  rw [List.getElem?_append_left hl, h]

/-- A call of `get_machine_readouts`. -/
theorem readR_spec (env : Machine α) (key : Option String) (s : State α) (hs : Inv env s) :
    match env.readouts (key.getD cpuinfo) with
    | .error e => readR env key s = (.error e, s)
    | .ok d => ∃ a s', readR env key s = (.ok a, s') ∧ Inv env s' ∧ s'.r = some (key, a) ∧ s'.m = s.m ∧
        ∃ c, s'.heap[a]? = some c ∧ (key = none → Bare env d c) ∧ (key ≠ none → c = d) ∧ ∀ (i : Nat) x, s.heap[i]? = some x → s'.heap[i]? = some x := by
  -- a miss
  have hmiss : (∀ a, s.r ≠ some (key, a)) → readR env key s = readR.miss env key s := by
    intro h
    unfold readR
    split
    · rename_i k a hk
      rw [if_neg]
      rintro rfl
      exact h a hk
    · rfl
  by_cases hit : ∃ a, s.r = some (key, a)
  · obtain ⟨a, ha⟩ := hit
    have hr : readR env key s = (.ok a, s) := by simp [readR, ha]
    cases key with
    | none =>
      obtain ⟨d, hd, hc⟩ := hs.bare a ha
      simp only [Option.getD_none, hd]
      rcases hc with hc | ⟨h, hh, hc⟩
      · exact ⟨a, s, hr, hs, ha, rfl, d, hc, fun _ => Or.inl rfl, fun h => absurd rfl h, fun _ _ h => h⟩
      · exact ⟨a, s, hr, hs, ha, rfl, _, hc, fun _ => Or.inr ⟨h, hh, rfl⟩, fun h => absurd rfl h, fun _ _ h => h⟩
    | some p =>
      obtain ⟨d, hd, hc⟩ := hs.named p a ha
      simp only [Option.getD_some, hd]
      exact ⟨a, s, hr, hs, ha, rfl, d, hc, fun h => by simp at h, fun _ => rfl, fun _ _ h => h⟩
  · rw [hmiss fun a ha => hit ⟨a, ha⟩]
    unfold readR.miss
    cases hd : env.readouts (key.getD cpuinfo) with
    | error e => rfl
    | ok d =>
      refine ⟨_, _, rfl, ?_, rfl, rfl, d, by simp, fun _ => Or.inl rfl, fun _ => rfl, fun i x h => getElem?_append _ _ _ _ h⟩
      refine ⟨?_, ?_, ?_, ?_⟩
      · intro p a h
        simp only [Option.some.injEq, Prod.mk.injEq] at h
        obtain ⟨rfl, rfl⟩ := h
        exact ⟨d, hd, by simp⟩
      · intro a h
        simp only [Option.some.injEq, Prod.mk.injEq] at h
        obtain ⟨rfl, rfl⟩ := h
        exact ⟨d, hd, Or.inl (by simp)⟩
      · intro k a h
        obtain ⟨d', h', h1, h2, h3⟩ := hs.hierarchy k a h
        exact ⟨d', h', h1, h2, getElem?_append _ _ _ _ h3⟩
      · intro k a k' b h h'
        simp only [Option.some.injEq, Prod.mk.injEq] at h
        obtain ⟨_, _, _, _, h3⟩ := hs.hierarchy k' b h'
        obtain ⟨hl, -⟩ := List.getElem?_eq_some_iff.1 h3
        omega

/-- What a call of `get_memory_hierarchy` returns. -/
def hierOf (env : Machine α) (key : Option Bool × Option String) : Except String α :=
  match env.readouts (key.2.getD cpuinfo) with
  | .error e => .error e
  | .ok d => env.hierarchy (key.1.getD true) d

/-- A call of `get_memory_hierarchy`; an object of the heap that is not memoised stays apart. -/
theorem readM_spec (env : Machine α) (key : Option Bool × Option String) (s : State α) (hs : Inv env s) :
    ∃ s', Inv env s' ∧ (∀ (i : Nat) x, s.heap[i]? = some x → s'.heap[i]? = some x) ∧
      (∀ i, s.r = some (none, i) → (∀ k j, s'.m = some (k, j) → i ≠ j) ∧ ∀ k j, s'.r = some (some k, j) → i ≠ j) ∧
      match hierOf env key with
      | .error e => readM env key s = (.error e, s')
      | .ok h => ∃ a, readM env key s = (.ok a, s') ∧ s'.heap[a]? = some (hier h) ∧ s'.m = some (key, a) := by
  have hmiss : (∀ a, s.m ≠ some (key, a)) → readM env key s = readM.miss env key s := by
    intro h
    unfold readM
    split
    · rename_i k a hk
      rw [if_neg]
      rintro rfl
      exact h a hk
    · rfl
  by_cases hit : ∃ a, s.m = some (key, a)
  · obtain ⟨a, ha⟩ := hit
    have hr : readM env key s = (.ok a, s) := by simp [readM, ha]
    obtain ⟨d, h, hd, hh, hc⟩ := hs.hierarchy key a ha
    refine ⟨s, hs, fun _ _ h => h, fun i hi => ⟨fun k j h => hs.apart _ _ _ _ hi h, fun k j h => by simp [hi] at h⟩, ?_⟩
    simp only [hierOf, hd, hh]
    exact ⟨a, hr, hc, ha⟩
  · rw [hmiss fun a ha => hit ⟨a, ha⟩]
    have hR := readR_spec env (some (key.2.getD cpuinfo)) s hs
    simp only [Option.getD_some] at hR
    unfold readM.miss
    cases hd : env.readouts (key.2.getD cpuinfo) with
    | error e =>
      rw [hd] at hR
      simp only [] at hR
      refine ⟨s, hs, fun _ _ h => h, fun i hi => ⟨fun k j h => hs.apart _ _ _ _ hi h, fun k j h => by simp [hi] at h⟩, ?_⟩
      simp [hierOf, hd, hR]
    | ok d =>
      rw [hd] at hR
      simp only [] at hR
      obtain ⟨a, s', hr, hi', hr', hm', c, hc, -, hcd, hmono⟩ := hR
      obtain rfl := hcd (by simp)
      have hfresh : ∀ i, s.r = some (none, i) → i < s'.heap.length ∧ i ≠ a := by
        intro i hi
        obtain ⟨d', -, h'⟩ := hs.bare i hi
        have hx : ∃ x, s.heap[i]? = some x := by rcases h' with h' | ⟨h, -, h'⟩ <;> exact ⟨_, h'⟩
        obtain ⟨x, hx⟩ := hx
        refine ⟨(List.getElem?_eq_some_iff.1 (hmono i x hx)).1, ?_⟩
        -- the named call was not memoised, so its object is new
        have : readR env (some (key.2.getD cpuinfo)) s = readR.miss env (some (key.2.getD cpuinfo)) s := by
          unfold readR
          simp [hi]
        rw [this] at hr
        unfold readR.miss at hr
        simp only [Option.getD_some, hd, Prod.mk.injEq, Except.ok.injEq] at hr
        obtain ⟨hl, -⟩ := List.getElem?_eq_some_iff.1 hx
        omega
      cases hh : env.hierarchy (key.1.getD true) c with
      | error e =>
        refine ⟨s', hi', hmono, fun i hi => ⟨fun k j h => hs.apart _ _ _ _ hi (hm' ▸ h), fun k j h => ?_⟩, ?_⟩
        · rw [hr', Option.some.injEq, Prod.mk.injEq] at h
          exact h.2 ▸ (hfresh i hi).2
        · simp [hierOf, hd, hh, hr, hc]
      | ok h =>
        refine ⟨{ s' with heap := s'.heap ++ [hier h], m := some (key, s'.heap.length) }, ?_, fun i x hx => getElem?_append _ _ _ _ (hmono i x hx), fun i hi => ⟨fun k j hj => ?_, fun k j hj => ?_⟩, ?_⟩
        rotate_left 3
        · simp only [hierOf, hd, hh, hr, hc]
          refine ⟨s'.heap.length, rfl, ?_, rfl⟩
          simp only [List.getElem?_concat_length]
        · refine ⟨?_, ?_, ?_, ?_⟩
          · intro p a h
            obtain ⟨d, h1, h2⟩ := hi'.named p a h
            exact ⟨d, h1, getElem?_append _ _ _ _ h2⟩
          · intro a h
            obtain ⟨d, h1, h2⟩ := hi'.bare a h
            refine ⟨d, h1, ?_⟩
            rcases h2 with h2 | ⟨x, hx, h2⟩
            · exact Or.inl (getElem?_append _ _ _ _ h2)
            · exact Or.inr ⟨x, hx, getElem?_append _ _ _ _ h2⟩
          · intro k a h'
            simp only [Option.some.injEq, Prod.mk.injEq] at h'
            obtain ⟨rfl, rfl⟩ := h'
            exact ⟨c, h, hd, hh, by simp only [List.getElem?_concat_length]⟩
          · intro k b k' b' h1 h2
            simp only [Option.some.injEq, Prod.mk.injEq] at h2
            simp only [hr', Option.some.injEq, Prod.mk.injEq] at h1
            obtain ⟨hl, -⟩ := List.getElem?_eq_some_iff.1 hc
            omega
        · simp only [Option.some.injEq, Prod.mk.injEq] at hj
          have := (hfresh i hi).1
          omega
        · simp only [hr', Option.some.injEq, Prod.mk.injEq] at hj
          exact hj.2 ▸ (hfresh i hi).2

theorem upd_idem (d h : Dict α) : upd (upd d h) h = upd d h := by
  funext k
  simp only [upd]
  cases h k <;> rfl

/-- What `current_system` compares with. -/
def system (env : Machine α) : Except String (Dict α) :=
  match env.readouts cpuinfo with
  | .error e => .error e
  | .ok d => match env.hierarchy true d with
    | .error e => .error e
    | .ok h => .ok (upd d (hier h))

theorem currentSystem_spec [DecidableEq α] (env : Machine α) (machine : Dict α) (s : State α) (hs : Inv env s) :
    Inv env (currentSystem env machine s).2 ∧ (currentSystem env machine s).1 =
      match system env with
      | .error e => .error e
      | .ok d => match differing d machine keys with
        | .error e => .error e
        | .ok l => .ok (l.isEmpty, l) := by
  have hR := readR_spec env none s hs
  simp only [Option.getD_none] at hR
  unfold currentSystem system
  cases hd : env.readouts cpuinfo with
  | error e =>
    rw [hd] at hR
    simp only [] at hR
    simp [hR, hs]
  | ok d =>
    rw [hd] at hR
    simp only [] at hR
    obtain ⟨a, s1, hr, hi1, hr1, -, c, hc, hbare, -, -⟩ := hR
    have hbare := hbare trivial
    obtain ⟨s2, hi2, hmono, hap, hM⟩ := readM_spec env (none, none) s1 hi1
    obtain ⟨hap1, hap2⟩ := hap a hr1
    simp only [hierOf, Option.getD_none, hd] at hM
    cases hh : env.hierarchy true d with
    | error e =>
      rw [hh] at hM
      simp only [] at hM
      simp [hr, hM, hi2, hh]
    | ok h =>
      rw [hh] at hM
      simp only [] at hM
      obtain ⟨b, hM, hb, hm⟩ := hM
      have hupd : upd c (hier h) = upd d (hier h) := by
        rcases hbare with rfl | ⟨h', hh', rfl⟩
        · rfl
        · rw [hh, Except.ok.injEq] at hh'
          subst hh'
          exact upd_idem _ _
      have ha2 := hmono a c hc
      have hinv : Inv env { s2 with heap := s2.heap.set a (upd d (hier h)) } := by
        obtain ⟨hl, -⟩ := List.getElem?_eq_some_iff.1 ha2
        have hother : ∀ j x, a ≠ j → s2.heap[j]? = some x → (s2.heap.set a (upd d (hier h)))[j]? = some x := by
          intro j x hj hx
          rw [List.getElem?_set_ne hj, hx]
        refine ⟨?_, ?_, ?_, hi2.apart⟩
        · intro p j hj
          obtain ⟨d', h1, h2⟩ := hi2.named p j hj
          exact ⟨d', h1, hother j d' (hap2 p j hj) h2⟩
        · intro j hj
          obtain ⟨d', h1, h2⟩ := hi2.bare j hj
          by_cases haj : a = j
          · subst haj
            exact ⟨d, hd, Or.inr ⟨h, hh, by simp [hl]⟩⟩
          · refine ⟨d', h1, ?_⟩
            rcases h2 with h2 | ⟨x, hx, h2⟩
            · exact Or.inl (hother j _ haj h2)
            · exact Or.inr ⟨x, hx, hother j _ haj h2⟩
        · intro k j hj
          obtain ⟨d', h', h1, h2, h3⟩ := hi2.hierarchy k j hj
          exact ⟨d', h', h1, h2, hother j _ (hap1 k j hj) h3⟩
      simp only [hr, hM, ha2, hb, hupd, hh]
      cases differing (upd d (hier h)) machine keys with
      | error e => exact ⟨hinv, rfl⟩
      | ok l => exact ⟨hinv, rfl⟩

theorem update_spec (env : Machine α) (r h o : Bool) (path : String) (data : Dict α) (s : State α) (hs : Inv env s) :
    Inv env (update env r h o path data s).2 ∧ (update env r h o path data s).1 =
      match (if r then env.readouts path else .ok fun _ => none) with
      | .error e => (some e, data)
      | .ok d =>
        if h then
          match hierOf env (some o, some path) with
          | .error e => (some e, upd data d)
          | .ok x => (none, upd (upd data d) (hier x))
        else (none, upd data d) := by
  -- the second part
  have second : ∀ (data : Dict α) (s : State α), Inv env s →
      let res : (Option String × Dict α) × State α :=
        if h then
          match readM env (some o, some path) s with
          | (.error e, s) => ((some e, data), s)
          | (.ok a, s) =>
            match s.heap[a]? with
            | none => ((some "dangling reference", data), s)
            | some d => ((none, upd data d), s)
        else ((none, data), s)
      Inv env res.2 ∧ res.1 = if h then
          match hierOf env (some o, some path) with
          | .error e => (some e, data)
          | .ok x => (none, upd data (hier x))
        else (none, data) := by
    intro data s hs
    cases h with
    | false => exact ⟨hs, rfl⟩
    | true =>
      obtain ⟨s2, hi2, -, -, hM⟩ := readM_spec env (some o, some path) s hs
      cases hh : hierOf env (some o, some path) with
      | error e =>
        rw [hh] at hM
        simp only [] at hM
        simp [hM, hi2]
      | ok x =>
        rw [hh] at hM
        simp only [] at hM
        obtain ⟨a, hM, ha, -⟩ := hM
        simp [hM, ha, hi2]
  unfold update
  cases r with
  | false =>
    have hn : upd data (fun _ => none) = data := by funext k; rfl
    simp only [Bool.false_eq_true, if_false, hn]
    exact second data s hs
  | true =>
    have hR := readR_spec env (some path) s hs
    simp only [Option.getD_some] at hR
    simp only [if_true]
    cases hd : env.readouts path with
    | error e =>
      rw [hd] at hR
      simp only [] at hR
      simp [hR, hs]
    | ok d =>
      rw [hd] at hR
      simp only [] at hR
      obtain ⟨a, s1, hr, hi1, -, -, c, hc, -, hcd, -⟩ := hR
      obtain rfl := hcd (by simp)
      simp only [hr, hc]
      exact second (upd data c) s1 hi1

theorem step_inv [DecidableEq α] (env : Machine α) (s : State α) (c : Call α) (hs : Inv env s) : Inv env (step env s c).2 := by
  cases c with
  | current machine => exact (currentSystem_spec env machine s hs).1
  | update r h o path data => exact (update_spec env r h o path data s hs).1

theorem after_inv [DecidableEq α] (env : Machine α) (s : State α) (cs : List (Call α)) (hs : Inv env s) : Inv env (after env s cs) := by
  induction cs generalizing s with
  | nil => exact hs
  | cons c cs ih => exact ih _ (step_inv env s c hs)

theorem differing_spec [DecidableEq α] (cur machine : Dict α) (ks : List String) (h : ∀ k ∈ ks, (cur k).isSome ∧ (machine k).isSome) :
    differing cur machine ks = .ok (ks.filter fun k => decide (cur k ≠ machine k)) := by
  induction ks with
  | nil => rfl
  | cons k ks ih =>
    obtain ⟨a, ha⟩ := Option.isSome_iff_exists.1 (h k (by simp)).1
    obtain ⟨b, hb⟩ := Option.isSome_iff_exists.1 (h k (by simp)).2
    simp only [differing, ha, hb, ih fun x hx => h x (by simp [hx]), List.filter_cons]
    by_cases hab : a = b <;> simp [hab]

end Verif.Readout
