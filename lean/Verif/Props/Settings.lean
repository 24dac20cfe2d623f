import Verif.Lemmas.Settings

/-!
C147: Models work with the settings they are given.
-/

namespace Verif.Settings

open Verif.Options Verif.CoreRuns Verif.IntText

/-- C147: with arguments of the command line, each model works with them, whatever its keyword arguments are. -/
theorem C147_arguments (a : Args) (kw : Kw) (p : Kind) (hp : a.cachePredictor = named p)
    (hv : Valid a.asmBlock a.pointerIncrement) :
    ecmData (some a) kw = .ok ⟨a.cores, p, a.verbose⟩ ∧ rooflineFLOP (some a) kw = .ok ⟨a.cores, p, a.verbose⟩ ∧
      ∃ c, CoreAs a.asmBlock a.pointerIncrement a.verbose c ∧ ecmCPU (some a) kw = .ok c ∧
        ecm (some a) kw = .ok (c, ⟨a.cores, p, a.verbose⟩) ∧ rooflineASM (some a) kw = .ok (c, ⟨a.cores, p, a.verbose⟩) := by
  obtain ⟨⟨b, hb⟩, ⟨i, hi⟩⟩ := hv
  have hd := data_args a kw p hp
  have hd' := data_args a { kw with cachePredictor := .sim } p hp
  have hval := (validated_own a b i).2 ⟨hb, hi⟩
  have hcpu : ecmCPU (some a) kw = .ok ⟨b, i, a.verbose⟩ := by simp [ecmCPU, hval]
  refine ⟨hd, hd, ⟨b, i, a.verbose⟩, ⟨hb, hi, rfl⟩, hcpu, ?_, ?_⟩
  · simp [ecm, hcpu, ecmData, hd']
  · simp [rooflineASM, rooflineFLOP, hd, hval]

/-- C147: settings that mean nothing are rejected: by the models with an in-core analysis. -/
theorem C147_rejected (a : Args) (kw : Kw) (hv : ¬ Valid a.asmBlock a.pointerIncrement) :
    ecmCPU (some a) kw = .error "SystemExit" ∧ ecm (some a) kw = .error "SystemExit" ∧
      ∀ p, a.cachePredictor = named p → rooflineASM (some a) kw = .error "SystemExit" := by
  have hval : validated (some a) a.asmBlock a.pointerIncrement = .error "SystemExit" := by
    cases h : validated (some a) a.asmBlock a.pointerIncrement with
    | error e => rw [validated_error a e h]
    | ok r =>
      obtain ⟨h1, h2⟩ := (validated_own a r.1 r.2).1 h
      exact absurd ⟨⟨_, h1⟩, ⟨_, h2⟩⟩ hv
  have hcpu : ecmCPU (some a) kw = .error "SystemExit" := by simp [ecmCPU, hval]
  refine ⟨hcpu, by simp [ecm, hcpu], fun p hp => ?_⟩
  simp [rooflineASM, rooflineFLOP, data_args a kw p hp, hval]

/-- C147: a predictor of another name is rejected by all models that predict traffic. -/
theorem C147_unknown (a : Args) (kw : Kw) (hp : ∀ p, a.cachePredictor ≠ named p) :
    ecmData (some a) kw = .error "NotImplementedError" ∧ rooflineFLOP (some a) kw = .error "NotImplementedError" ∧
      rooflineASM (some a) kw = .error "NotImplementedError" ∧
      (Valid a.asmBlock a.pointerIncrement → ecm (some a) kw = .error "NotImplementedError") := by
  have hd : ∀ kw, data (some a) kw = .error "NotImplementedError" := fun kw => by
    have h1 := hp .sim
    have h2 := hp .lc
    simp only [named] at h1 h2
    simp [data, h1, h2]
  refine ⟨hd kw, hd kw, by simp [rooflineASM, rooflineFLOP, hd], ?_⟩
  rintro ⟨⟨b, hb⟩, ⟨i, hi⟩⟩
  have hval := (validated_own a b i).2 ⟨hb, hi⟩
  have hcpu : ecmCPU (some a) kw = .ok ⟨b, i, a.verbose⟩ := by simp [ecmCPU, hval]
  simp [ecm, hcpu, ecmData, hd]

/-- C147, keyword arguments, part: models of traffic work with them; in-core analyses if block and pointer increment are given as
words; the ECM model if it is to use the simulation. Missing: numbers (`C147_negation_number`) and layer conditions
(`C147_negation_predictor`). -/
theorem C147_keywords_partial (kw : Kw) :
    ecmData none kw = .ok ⟨kw.cores, kw.cachePredictor, kw.verbose⟩ ∧
      rooflineFLOP none kw = .ok ⟨kw.cores, kw.cachePredictor, kw.verbose⟩ ∧
      ∀ b i, b ∈ ["auto", "manual"] → i ∈ ["auto", "auto_with_manual_fallback", "manual"] → kw.asmBlock = .text b →
        kw.pointerIncrement = .text i →
        ecmCPU none kw = .ok ⟨.text b, .text i, kw.verbose⟩ ∧
        rooflineASM none kw = .ok (⟨.text b, .text i, kw.verbose⟩, ⟨kw.cores, kw.cachePredictor, kw.verbose⟩) ∧
        (kw.cachePredictor = .sim →
          ecm none kw = .ok (⟨.text b, .text i, kw.verbose⟩, ⟨kw.cores, kw.cachePredictor, kw.verbose⟩)) := by
  refine ⟨rfl, rfl, fun b i hb hi h1 h2 => ?_⟩
  have hval : validated none (.text b) (.text i) = .ok (.text b, .text i) := by
    simp [validated, validate_word _ _ hb, validate_word _ _ hi]
  have hcpu : ecmCPU none kw = .ok ⟨.text b, .text i, kw.verbose⟩ := by simp [ecmCPU, h1, h2, hval]
  refine ⟨hcpu, by simp [rooflineASM, rooflineFLOP, data, h1, h2, hval], fun h => ?_⟩
  simp [ecm, hcpu, ecmData, data, h]

/-- C147 fails for the predictor of the ECM model: layer conditions are asked for, caches are simulated. -/
theorem C147_negation_predictor : ∀ kw : Kw, kw.cachePredictor = .lc →
    ∀ c d, ecm none kw = .ok (c, d) → d.predictor = .sim := by
  intro kw _ c d h
  unfold ecm at h
  cases hc : ecmCPU none kw with
  | error e => rw [hc] at h; cases h
  | ok c' => rw [hc] at h; cases h; rfl

example : ecm none ⟨0, 4, .lc, .text "auto", .text "auto"⟩ = .ok (⟨.text "auto", .text "auto", 0⟩, ⟨4, .sim, 0⟩) := by decide +kernel

/-- C147: exactly the simulation is the predictor given to and used by the ECM model. -/
theorem C147_predictor_iff (kw : Kw) (c : Core) (d : Data) (h : ecm none kw = .ok (c, d)) :
    d = ⟨kw.cores, kw.cachePredictor, kw.verbose⟩ ↔ kw.cachePredictor = .sim := by
  unfold ecm at h
  cases hc : ecmCPU none kw with
  | error e => rw [hc] at h; cases h
  | ok c' =>
    rw [hc] at h
    cases h
    simp [eq_comm]

/-- C147 fails for numbers given as keyword arguments: no model with an in-core analysis can be created. -/
theorem C147_negation_number (kw : Kw) (n : Int) (h : kw.asmBlock = .num n ∨ kw.asmBlock = .text "auto" ∧ kw.pointerIncrement = .num n) :
    ecmCPU none kw = .error "AttributeError" ∧ ecm none kw = .error "AttributeError" ∧
      rooflineASM none kw = .error "AttributeError" := by
  have hval : validated none kw.asmBlock kw.pointerIncrement = .error "AttributeError" := by
    rcases h with h | ⟨h, h'⟩
    · simp [validated, validate, h]
    · simp [validated, validate, h, h']
  have hcpu : ecmCPU none kw = .error "AttributeError" := by simp [ecmCPU, hval]
  exact ⟨hcpu, by simp [ecm, hcpu], by simp [rooflineASM, rooflineFLOP, data, hval]⟩

/-! ### Examples -/

example : ecm (some ⟨2, 8, "LC", .num 3, .text " 0_32"⟩) ⟨0, 1, .sim, .text "auto", .text "auto"⟩ =
    .ok (⟨.num 3, .num 32, 2⟩, ⟨8, .lc, 2⟩) := by decide +kernel

example : ∃ c, CoreAs (.num 3) (.text "32") 2 c ∧
    rooflineASM (some ⟨2, 8, "LC", .num 3, .text "32"⟩) ⟨0, 1, .sim, .text "auto", .text "auto"⟩ = .ok (c, ⟨8, .lc, 2⟩) := by
  obtain ⟨-, -, c, h1, -, -, h2⟩ := C147_arguments ⟨2, 8, "LC", .num 3, .text "32"⟩ ⟨0, 1, .sim, .text "auto", .text "auto"⟩ .lc rfl
    ⟨⟨_, .num 3⟩, ⟨_, .written "32" 32 (by decide) ((pyInt_iff _ _).1 (by decide +kernel))⟩⟩
  exact ⟨c, h1, h2⟩

example : ecmCPU (some ⟨0, 1, "SIM", .text "first", .text "auto"⟩) ⟨0, 1, .sim, .text "auto", .text "auto"⟩ = .error "SystemExit" :=
  (C147_rejected _ _ (by
    rintro ⟨⟨v, h⟩, -⟩
    rw [← validate_own] at h
    revert h
    rw [show validate ["auto", "manual"] (.text "first") (some (.text "first")) = .error "SystemExit" from by decide +kernel]
    exact nofun)).1

example : ecm (some ⟨0, 1, "sim", .text "auto", .text "auto"⟩) ⟨0, 1, .sim, .text "auto", .text "auto"⟩ = .error "NotImplementedError" :=
  (C147_unknown _ _ (by rintro (_ | _) <;> decide)).2.2.2
    ⟨⟨_, .word "auto" (by decide)⟩, ⟨_, .word "auto" (by decide)⟩⟩

example : rooflineASM none ⟨1, 4, .lc, .text "manual", .text "auto_with_manual_fallback"⟩ =
    .ok (⟨.text "manual", .text "auto_with_manual_fallback", 1⟩, ⟨4, .lc, 1⟩) :=
  ((C147_keywords_partial ⟨1, 4, .lc, .text "manual", .text "auto_with_manual_fallback"⟩).2.2 "manual" "auto_with_manual_fallback"
    (by decide) (by decide) rfl rfl).2.1

end Verif.Settings
