import Verif.Lemmas.Refresh

/-!
C158: machine descriptions that are renewed.
-/

namespace Verif.Refresh

/-- The claim of C158: a description on the basis of another one still has all information that was filled in. -/
def C158Claim : Prop :=
  ∀ (o : Opts) (m : Machine) (bench state : String) (d : Desc), "model name" ∉ m.fixed.map (·.1) →
    ∃ d', update o m bench state d = .ok d' ∧ Keeps d d'

/-- What is read for an entry of a level. -/
def Readable (m : Machine) (n k : String) : Prop :=
  (∃ c ∈ m.caches, c.1 = n ∧ k ∈ c.2.map (·.1) ∧ k ∉ cacheUnknown) ∨ n = "MEM" ∧ k ∈ m.memory.map (·.1) ∧ k ∉ memoryUnknown

/-- The steps of `update`. -/
theorem update_ok (o : Opts) (m : Machine) (bench state : String) (d d' : Desc) (h : update o m bench state d = .ok d') :
    (∀ k, d'.entries.lookup k = if k = "machine state" then some (.info state) else if o.benchmarks ∧ k = "benchmarks" then some (.info bench)
      else if o.readouts then ((readouts m).reverse.lookup k).or (d.entries.lookup k) else d.entries.lookup k) ∧
    if o.hierarchy then hierarchy o.overwrite m = .ok d'.levels else d'.levels = d.levels := by
  obtain ⟨r, hi, b, ov⟩ := o
  simp only [update, bind, Except.bind] at h
  cases hi with
  | false =>
    simp only [Bool.false_eq_true, if_false, Except.ok.injEq] at h
    subst h
    refine ⟨fun k => ?_, by cases r <;> cases b <;> simp⟩
    cases r <;> cases b <;> simp [lookup_put, lookup_putAll]
  | true =>
    simp only [if_true] at h
    cases hh : hierarchy ov m with
    | error e => rw [hh] at h; simp [Except.map] at h
    | ok l =>
      rw [hh] at h
      simp only [Except.map, Except.ok.injEq] at h
      subst h
      refine ⟨fun k => ?_, by cases r <;> cases b <;> simp⟩
      cases r <;> cases b <;> simp [lookup_put, lookup_putAll]

/-- C158: exactly when information is kept: the name of the model was read, was not there before or was not to be read, and the memory hierarchy was not to be
read or had no information but what is read. -/
theorem C158_keeps_iff (o : Opts) (m : Machine) (bench state : String) (d d' : Desc) (hf : "model name" ∉ m.fixed.map (·.1))
    (h : update o m bench state d = .ok d') :
    Keeps d d' ↔ (o.readouts → m.modelName = none → ¬ Filled d.entries "model name") ∧
      (o.hierarchy → ∀ n k, d.Filled n k → Readable m n k) := by
  obtain ⟨h1, h2⟩ := update_ok o m bench state d d' h
  unfold Keeps
  refine and_congr ?_ ?_
  · constructor
    · intro hk hr hn hfill
      obtain ⟨s, hs⟩ := hk _ hfill
      rw [h1] at hs
      rcases lookup_readouts m hf "model name" with ⟨t, ht⟩ | ⟨-, ht⟩ | ⟨-, -, ht⟩
      · have : (readouts m).reverse.lookup "model name" = some .required := by
          have hfix : (m.fixed.map fun p => (p.1, Val.info p.2)).reverse.lookup "model name" = none := by
            rw [← List.map_reverse]
            cases hl : (m.fixed.reverse.map fun p => (p.1, Val.info p.2)).lookup "model name" with
            | none => rfl
            | some v =>
              obtain ⟨u, rfl⟩ := lookup_infos _ _ _ hl
              exact absurd ((lookup_infos_some _ _).1 ⟨u, hl⟩) (by simpa using hf)
          cases hk : m.clock <;> simp [readouts, hn, hk, List.lookup]
        rw [this] at ht
        simp at ht
      · exact ht (by simp [readouts])
      · simp [hr, ht] at hs
    · intro hk k hfill
      obtain ⟨s, hs⟩ := hfill
      unfold Filled
      rw [h1]
      split
      · exact ⟨_, rfl⟩
      · split
        · exact ⟨_, rfl⟩
        · split
          · next hr =>
            rcases lookup_readouts m hf k with ⟨t, ht⟩ | ⟨ht, -⟩ | ⟨rfl, hn, -⟩
            · exact ⟨t, by simp [ht]⟩
            · exact ⟨s, by simp [ht, hs]⟩
            · exact absurd ⟨s, hs⟩ (hk hr hn)
          · exact ⟨s, hs⟩
  · cases hh : o.hierarchy with
    | false =>
      rw [hh] at h2
      simp only [Bool.false_eq_true, if_false] at h2
      simp [Desc.Filled, h2]
    | true =>
      rw [hh] at h2
      simp only [if_true] at h2
      simp only [true_implies]
      have hnew : ∀ n k, d'.Filled n k ↔ Readable m n k := by
        intro n k
        unfold hierarchy at h2
        split at h2
        · simp at h2
        · split at h2
          · simp at h2
          · next _ ho =>
            have ho : o.overwrite = true := by simpa using ho
            rw [ho] at h2
            simp only [Except.ok.injEq] at h2
            unfold Desc.Filled Readable
            rw [← h2]
            simp only [List.mem_append, List.mem_map, List.mem_singleton]
            constructor
            · rintro ⟨l, ⟨c, hc, rfl⟩ | rfl, rfl, hl⟩
              · obtain ⟨a, b⟩ := (filled_level _ _ _).1 hl
                exact .inl ⟨c, hc, rfl, by simpa using b, a⟩
              · obtain ⟨a, b⟩ := (filled_level _ _ _).1 hl
                exact .inr ⟨rfl, by simpa using b, a⟩
            · rintro (⟨c, hc, rfl, b, a⟩ | ⟨rfl, b, a⟩)
              · exact ⟨_, .inl ⟨c, hc, rfl⟩, rfl, (filled_level _ _ _).2 ⟨a, by simpa using b⟩⟩
              · exact ⟨_, .inr rfl, rfl, (filled_level _ _ _).2 ⟨a, by simpa using b⟩⟩
      simp only [hnew]

/-- C158, partial: with `--no-memory-hierarchy` everything is kept if the name of the model can be read. Missing: renewed memory hierarchies
(`C158_negation_throughput`, `C158_negation_overwrite`) and machines without a name (`C158_negation_name`). -/
theorem C158_keeps_partial (o : Opts) (m : Machine) (bench state : String) (d : Desc) (hf : "model name" ∉ m.fixed.map (·.1))
    (ho : o.hierarchy = false) (hn : m.modelName ≠ none) : ∃ d', update o m bench state d = .ok d' ∧ Keeps d d' := by
  have : ∃ d', update o m bench state d = .ok d' := by
    simp [update, ho, bind, Except.bind]
  obtain ⟨d', h⟩ := this
  refine ⟨d', h, (C158_keeps_iff o m bench state d d' hf h).2 ⟨fun _ he => absurd he hn, fun hh => ?_⟩⟩
  rw [ho] at hh
  cases hh

/-- A machine with one cache. -/
def sampleMachine : Machine := ⟨[("sockets", "2")], some "Xeon", none, [("L1", [("size per group", "32 kB")])], [("cores per group", "10")]⟩

/-- Its description, with the throughput filled in. -/
def sampleDesc : Desc := ⟨[("model name", .info "my machine")], [⟨"L1", [("upstream throughput", .info "ports 2D 3D"), ("size per group", .info "32 kB")]⟩]⟩

example : "model name" ∉ sampleMachine.fixed.map (·.1) ∧ (update {} sampleMachine "" "" sampleDesc).isOk = true ∧
    (update { hierarchy := false } sampleMachine "" "" sampleDesc).isOk = true := by decide

/-- The memory hierarchy is replaced as a whole: what was filled in is lost. -/
theorem C158_negation_throughput : ¬ C158Claim := by
  intro h
  obtain ⟨d', hd, hk⟩ := h {} sampleMachine "" "" sampleDesc (by decide)
  have := ((C158_keeps_iff _ _ _ _ _ _ (by decide) hd).1 hk).2 rfl "L1" "upstream throughput"
    ⟨_, List.mem_singleton.2 rfl, rfl, "ports 2D 3D", rfl⟩
  rcases this with ⟨c, -, -, -, h⟩ | ⟨h, -⟩
  · exact h (by decide)
  · exact absurd h (by decide)

/-- With `--no-overwrite` memory hierarchies are never read: nothing is written. -/
theorem C158_negation_overwrite (o : Opts) (h1 : o.hierarchy = true) (h2 : o.overwrite = false) (m : Machine) (bench state : String) (d d' : Desc) :
    update o m bench state d ≠ .ok d' := by
  intro h
  have := (update_ok o m bench state d d' h).2
  rw [h1, h2] at this
  simp only [if_true, hierarchy] at this
  split at this <;> simp at this

/-- If there is no name in `/proc/cpuinfo`, the one that was filled in is replaced by `None`. -/
theorem C158_negation_name : ∃ d', update { hierarchy := false } { sampleMachine with modelName := none } "" "" sampleDesc = .ok d' ∧ ¬ Keeps sampleDesc d' := by
  refine ⟨_, rfl, fun h => ?_⟩
  exact ((C158_keeps_iff { hierarchy := false } { sampleMachine with modelName := none } "" "" sampleDesc _ (by decide) rfl).1 h).1 rfl rfl
    ⟨"my machine", rfl⟩

/-- C158: all other entries are those from before, and those that are read are new. -/
theorem C158_entries (o : Opts) (m : Machine) (bench state : String) (d d' : Desc) (hf : "model name" ∉ m.fixed.map (·.1))
    (h : update o m bench state d = .ok d') (k : String) (hs : k ≠ "machine state") (hb : k ≠ "benchmarks") :
    (k ∉ (readouts m).map (·.1) ∨ o.readouts = false → d'.entries.lookup k = d.entries.lookup k) ∧
      (k ∈ (readouts m).map (·.1) → o.readouts = true → d'.entries.lookup k = (readouts m).reverse.lookup k) := by
  have h1 := (update_ok o m bench state d d' h).1 k
  simp only [hs, hb, and_false, if_false] at h1
  rw [h1]
  constructor
  · rintro (hk | hk)
    · have hl : (readouts m).reverse.lookup k = none := by
        rcases lookup_readouts m hf k with ⟨t, ht⟩ | ⟨ht, -⟩ | ⟨rfl, -, -⟩
        · exfalso
          apply hk
          have := List.lookup_eq_some_iff.1 ht
          obtain ⟨l1, l2, hl, -⟩ := this
          have hm : (k, Val.info t) ∈ (readouts m).reverse := by rw [hl]; simp
          exact List.mem_map.2 ⟨_, List.mem_reverse.1 hm, rfl⟩
        · exact ht
        · exact absurd (by simp [readouts]) hk
      simp [hl]
    · simp [hk]
  · intro hk hr
    rcases lookup_readouts m hf k with ⟨t, ht⟩ | ⟨-, ht⟩ | ⟨-, -, ht⟩
    · simp [hr, ht]
    · exact absurd hk ht
    · simp [hr, ht]

end Verif.Refresh
