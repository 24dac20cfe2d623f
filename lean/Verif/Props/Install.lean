import Verif.Lemmas.Install

/-!
C148: installation of IACA.
-/

namespace Verif.Install

/-- C148: runs that neither install nor fail while installing leave the disk as it is. With a failing or successful installation, only a location that was
free is written, which is the one in the package if that is free. -/
theorem C148_untouched (machine : Option Os) (argv : List String) (ok : Nat) (d : Disk) :
    ((∀ p, (main machine argv ok d).1 ≠ .failed p ∧ (main machine argv ok d).1 ≠ .installed p) → (main machine argv ok d).2 = d) ∧
    ∀ p, ((main machine argv ok d).1 = .failed p ∨ (main machine argv ok d).1 = .installed p) →
      Free (d.at p) ∧ (Free d.package → p = .package) ∧ (main machine argv ok d).2.at p.other = d.at p.other := by
  rcases main_cases machine argv ok d with ⟨os, h⟩ | ⟨h, h'⟩
  · rw [h]
    cases hc : choose d with
    | none => simp [install_none os ok d hc]
    | some q =>
      rw [install_some os ok d q hc]
      refine ⟨fun hp => ?_, fun p hp => ?_⟩
      · have := hp q
        split at this <;> simp at this
      · have : q = p := by
          split at hp <;> simpa using hp
        subst this
        obtain ⟨h1, h2⟩ := choose_free d q hc
        refine ⟨h1, fun hf => ?_, (at_set _ _ q).2⟩
        cases q
        · exact absurd hf (h2 rfl)
        · rfl
  · refine ⟨fun _ => h, fun p hp => ?_⟩
    rcases h' with h' | h' | h' <;> simp [h'] at hp

/-- C148: a successful run leaves all tools in its location, for one system. -/
theorem C148_complete (machine : Option Os) (argv : List String) (ok : Nat) (d : Disk) (p : Place) (h : (main machine argv ok d).1 = .installed p) :
    ∃ os dir, ((main machine argv ok d).2.at p).dir = some dir ∧ Complete os dir := by
  rcases main_cases machine argv ok d with ⟨os, hm⟩ | ⟨-, h'⟩
  · rw [hm] at h ⊢
    cases hc : choose d with
    | none => simp [install_none os ok d hc] at h
    | some q =>
      rw [install_some os ok d q hc] at h ⊢
      split at h
      · cases h
      · cases h
        rename_i hk
        exact ⟨os, _, by rw [(at_set _ _ p).1], all_complete os ok hk⟩
  · rcases h' with h' | h' | h' <;> simp [h'] at h

/-- C148, partial: after a successful run, `find_iaca` returns its location exactly if that is the one in the home directory or there was no complete
installation there. Missing: forced installations (`C148_negation_forced`). -/
theorem C148_found_partial (machine : Option Os) (argv : List String) (ok : Nat) (d : Disk) (p : Place) (h : (main machine argv ok d).1 = .installed p) :
    findIaca (main machine argv ok d).2 = some p ↔ p = .home ∨ findIaca d ≠ some .home := by
  rcases main_cases machine argv ok d with ⟨os, hm⟩ | ⟨-, h'⟩
  · rw [hm] at h ⊢
    cases hc : choose d with
    | none => simp [install_none os ok d hc] at h
    | some q =>
      rw [install_some os ok d q hc] at h ⊢
      split at h
      · cases h
      · cases h
        rename_i hk
        have hv := all_valid os ok hk
        have hf := (choose_free d p hc).1.1
        cases p
        · simp [findIaca_eq, Disk.set, Disk.at, hv]
        · cases hh : d.home.valid <;> simp [findIaca_eq, Disk.set, Disk.at, hv, hh]
  · rcases h' with h' | h' | h' <;> simp [h'] at h

/-- C148: an installation that did not succeed is not found: `find_iaca` returns what it returned before. -/
theorem C148_failed (machine : Option Os) (argv : List String) (ok : Nat) (d : Disk) (h : ∀ p, (main machine argv ok d).1 ≠ .installed p) :
    findIaca (main machine argv ok d).2 = findIaca d := by
  rcases main_cases machine argv ok d with ⟨os, hm⟩ | ⟨h', -⟩
  · rw [hm] at h ⊢
    cases hc : choose d with
    | none => simp [install_none os ok d hc]
    | some q =>
      rw [install_some os ok d q hc] at h ⊢
      split at h
      · rename_i hk
        have hv := take_valid os ok hk
        have hf := valid_none _ (choose_free d q hc).1.1
        cases q
        · have hf : d.home.valid = false := hf
          simp only [findIaca, Disk.set, hv, hf]
          rfl
        · have hf : d.package.valid = false := hf
          simp [findIaca, Disk.set, hv, hf]
      · exact absurd rfl (h q)
  · rw [h']

/-- C148: `find_iaca` returns a location if and only if all tools are there; the home directory comes first. -/
theorem C148_find (d : Disk) :
    (∀ p, findIaca d = some p ↔ Usable (d.at p) ∧ (p = .package → ¬Usable d.home)) ∧
    (findIaca d = none ↔ ¬Usable d.home ∧ ¬Usable d.package) := by
  simp only [← valid_iff]
  refine ⟨fun p => ?_, ?_⟩
  · rw [findIaca_eq, Bool.not_eq_true]
  · rw [findIaca_none, Bool.not_eq_true, Bool.not_eq_true]

/-- A link to a version that was removed. -/
example : findIaca ⟨⟨some ⟨[("v2.2", .mac), ("v2.3", .mac)], [("iaca2.2", "v2.2"), ("iaca2.3", "v2.3"), ("iaca3.0", "v3.0")]⟩, true⟩,
    ⟨some (runSteps .mac steps), true⟩⟩ = some .package := by decide

/-- C148: with an installation, only `--force` installs again. -/
theorem C148_existing (m : Os) (argv : List String) (ok : Nat) (d : Disk) (h : findIaca d ≠ none) (hf : "--force" ∉ argv) :
    main (some m) argv ok d = (.already, d) := by
  cases hc : findIaca d with
  | none => exact absurd hc h
  | some p => simp [main, hc, hf]

/-- C148, partial: without an installation, accepting the licence installs for this system if a location is free and no step fails, and then the
installation is found; with an installation, `--force` does, but it need not be found. Missing: `--force` without an installation (`C148_negation_fresh`),
locations left by runs that failed (`C148_negation_repeat`). -/
theorem C148_installs_partial (m : Os) (argv : List String) (ok : Nat) (d : Disk) (hok : allSteps ≤ ok)
    (ha : findIaca d = none ∧ Accepts argv ∨ findIaca d ≠ none ∧ Forces argv) :
    ((∃ p, Free (d.at p)) ↔ ∃ p dir, (main (some m) argv ok d).1 = .installed p ∧ ((main (some m) argv ok d).2.at p).dir = some dir ∧ Complete m dir) ∧
    (findIaca d = none → (∃ p, Free (d.at p)) → findIaca (main (some m) argv ok d).2 ≠ none) := by
  have hm : main (some m) argv ok d = install m ok d := by
    rcases ha with ⟨hf, p, rfl⟩ | ⟨hf, p, hp, rfl | rfl⟩
    · simp [main, hf, checked]
    · cases hc : findIaca d with
      | none => exact absurd hc hf
      | some q =>
        have h1 : ([p, accept, "--force"] : List String).erase "--force" = [p, accept] := by
          rw [List.erase_cons_tail (by simpa using hp), List.erase_cons_tail (by decide), List.erase_cons_head]
        simp [main, hc, h1, checked]
    · cases hc : findIaca d with
      | none => exact absurd hc hf
      | some q =>
        have h1 : ([p, "--force", accept] : List String).erase "--force" = [p, accept] := by
          rw [List.erase_cons_tail (by simpa using hp), List.erase_cons_head]
        simp [main, hc, h1, checked]
  have hk : ¬ok < steps.length := not_lt.2 hok
  cases hc : choose d with
  | none =>
    rw [hm, install_none m ok d hc]
    refine ⟨⟨fun ⟨p, hp⟩ => absurd hp (choose_none d hc p), fun ⟨p, dir, h, _⟩ => by cases h⟩, fun _ ⟨p, hp⟩ => absurd hp (choose_none d hc p)⟩
  | some q =>
    have hi := install_some m ok d q hc
    rw [if_neg hk] at hi
    rw [hm, hi]
    refine ⟨⟨fun _ => ⟨q, _, rfl, by rw [(at_set _ _ q).1], all_complete m ok hk⟩, fun _ => ⟨q, (choose_free d q hc).1⟩⟩, fun _ _ hn => ?_⟩
    have hv := all_valid m ok hk
    rw [findIaca_none] at hn
    cases q <;> simp [Disk.set, Disk.at, hv] at hn

/-- C148, partial: after a run that failed, repeating it installs exactly if the other location is free. Missing: the location it left (`C148_negation_repeat`). -/
theorem C148_repeat_partial (m : Os) (p₀ : String) (ok ok' : Nat) (d : Disk) (p : Place) (hf : findIaca d = none) (hok : allSteps ≤ ok')
    (h : (main (some m) [p₀, accept] ok d).1 = .failed p) :
    (∃ q, (main (some m) [p₀, accept] ok' (main (some m) [p₀, accept] ok d).2).1 = .installed q) ↔ Free (d.at p.other) := by
  have h1 : findIaca (main (some m) [p₀, accept] ok d).2 = none := by
    rw [C148_failed _ _ _ _ (by simp [h]), hf]
  have h2 := (C148_installs_partial m [p₀, accept] ok' _ hok (.inl ⟨h1, p₀, rfl⟩)).1
  have h3 := (C148_untouched (some m) [p₀, accept] ok d).2 p (.inl h)
  have h4 : ¬Free ((main (some m) [p₀, accept] ok d).2.at p) := by
    rcases main_cases (some m) [p₀, accept] ok d with ⟨os, hm⟩ | ⟨-, h'⟩
    · rw [hm] at h ⊢
      cases hc : choose d with
      | none => simp [install_none os ok d hc] at h
      | some q =>
        rw [install_some os ok d q hc] at h ⊢
        split at h
        · cases h
          rw [(at_set _ _ p).1]
          simp [Free]
        · cases h
    · rcases h' with h' | h' | h' <;> simp [h'] at h
  rw [← h3.2.2]
  constructor
  · rintro ⟨q, hq⟩
    have hfree := ((C148_untouched (some m) [p₀, accept] ok' (main (some m) [p₀, accept] ok d).2).2 q (.inr hq)).1
    have : q = p.other := by
      cases p <;> cases q <;> first | rfl | exact absurd hfree h4
    exact this ▸ hfree
  · intro hfree
    obtain ⟨q, dir, hq, -⟩ := h2.1 ⟨_, hfree⟩
    exact ⟨q, hq⟩

/-- Nothing is installed and both locations are free. -/
def fresh : Disk := ⟨⟨none, true⟩, ⟨none, true⟩⟩

/-- Installed in the home directory. -/
def atHome : Disk := ⟨⟨some (runSteps .lin64 steps), true⟩, ⟨none, true⟩⟩

/-- C148, negation: after two runs without network, nothing can be installed. -/
theorem C148_negation_repeat :
    let d := (main (some .lin64) ["iaca_get", accept] 0 (main (some .lin64) ["iaca_get", accept] 0 fresh).2).2
    findIaca d = none ∧ ∀ m argv ok p, (main m argv ok d).1 ≠ .installed p := by
  refine ⟨by decide +kernel, fun m argv ok p h => ?_⟩
  have := ((C148_untouched m argv ok _).2 p (.inr h)).1
  cases p
  · exact absurd this.1 (by decide +kernel)
  · exact absurd this.1 (by decide +kernel)

/-- C148, negation: without an installation, `--force` is not removed from the arguments; nothing is installed. -/
theorem C148_negation_fresh (argv : List String) (ok : Nat) (hf : Forces argv) :
    main (some .lin64) argv ok fresh = (.license, fresh) ∨ main (some .lin64) argv ok fresh = (.assertion, fresh) := by
  have h : findIaca fresh = none := by decide
  obtain ⟨p, -, rfl | rfl⟩ := hf
  · right
    simp [main, h, checked, Os.ofArg]
  · left
    have : ("--force" != accept) = true := by decide
    simp [main, h, checked, this]

/-- C148, negation: a forced installation goes to the package, but the old one in the home directory is found. -/
theorem C148_negation_forced :
    let e := main (some .lin64) ["iaca_get", accept, "--force"] 8 atHome
    e.1 = .installed .package ∧ findIaca e.2 = some .home := by decide +kernel

/-- C148, negation: given the other system, its binaries are installed to the location for this system and found. -/
theorem C148_negation_system :
    let e := main (some .lin64) ["iaca_get", accept, "mac"] 8 fresh
    findIaca e.2 = some .package ∧ ∀ dir, (e.2.at .package).dir = some dir → ¬Complete .lin64 dir := by
  refine ⟨by decide +kernel, fun dir h hc => ?_⟩
  obtain ⟨v, -, hv⟩ := hc "iaca2.2" (by simp)
  have hd : dir = runSteps .mac steps := by
    have : (((main (some .lin64) ["iaca_get", accept, "mac"] 8 fresh).2.at .package).dir) = some (runSteps .mac steps) := by decide +kernel
    rw [this] at h
    exact (Option.some.inj h).symm
  subst hd
  simp [runSteps, steps, Step.run] at hv

example : (main (some .lin64) ["iaca_get", accept] 8 fresh).1 = .installed .package ∧ findIaca (main (some .lin64) ["iaca_get", accept] 8 fresh).2 = some .package ∧
    (main (some .lin64) ["iaca_get", accept] 3 fresh).1 = .failed .package ∧ findIaca atHome = some .home ∧ Forces ["iaca_get", "--force", accept] ∧
    Free (fresh.at Place.package.other) ∧ (main none ["iaca_get"] 8 fresh).1 = .assertion := by
  refine ⟨by decide +kernel, by decide +kernel, by decide +kernel, by decide +kernel, ⟨_, by decide, .inr rfl⟩, ⟨rfl, rfl⟩, rfl⟩

end Verif.Install
