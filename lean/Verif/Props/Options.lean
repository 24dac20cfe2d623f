import Verif.Lemmas.Options

/-!
C123: options are interpreted as documented.
-/

namespace Verif.Options

open Verif.IntText

/-- A block is "auto", "manual" or a number (`README` and line 171-173); every other text is rejected. -/
theorem C123_block (s : String) (v : Val) :
    asmBlock s = .ok v ↔ ((s = "auto" ∨ s = "manual") ∧ v = .text s) ∨ ∃ n, Means s n ∧ v = .num n := by
  have hno : ∀ n, ¬ Means "auto" n ∧ ¬ Means "manual" n := by
    intro n
    rw [← pyInt_iff, ← pyInt_iff, show pyInt "auto" = none from by decide +kernel, show pyInt "manual" = none from by decide +kernel]
    simp
  unfold asmBlock
  split
  · rename_i h
    constructor
    · intro hv
      simp only [Except.ok.injEq] at hv
      exact Or.inl ⟨h, hv.symm⟩
    · rintro (⟨-, rfl⟩ | ⟨n, hn, -⟩)
      · rfl
      · rcases h with rfl | rfl
        · exact absurd hn (hno n).1
        · exact absurd hn (hno n).2
  · rename_i h
    split
    · rename_i n hn
      constructor
      · intro hv
        simp only [Except.ok.injEq] at hv
        exact Or.inr ⟨n, (pyInt_iff _ _).1 hn, hv.symm⟩
      · rintro (⟨h', -⟩ | ⟨m, hm, rfl⟩)
        · exact absurd h' h
        · rw [← pyInt_iff, hn, Option.some.injEq] at hm
          rw [hm]
    · rename_i hn
      constructor
      · intro hv
        simp at hv
      · rintro (⟨h', -⟩ | ⟨m, hm, rfl⟩)
        · exact absurd h' h
        · rw [← pyInt_iff, hn] at hm
          simp at hm

example : asmBlock " -1_2 " = .ok (.num (-12)) := (C123_block _ _).2 (Or.inr ⟨-12, ⟨[' '], ['-', '1', '_', '2'], [' '], ['1', '_', '2'], ['1', '2'],
  by decide, by decide, by decide, .underscore (by decide) (.last (by decide)), Or.inr (Or.inr ⟨rfl, by decide⟩)⟩, rfl⟩)

example : asmBlock "first" = .error "SystemExit" := by decide +kernel

/-- A pointer increment as it comes from the command line is one of three words or a number; every other text is rejected. -/
theorem C123_increment (s : String) (v : Val) :
    pointerIncrement (intOrStr s) = .ok v ↔
      ((s = "auto" ∨ s = "auto_with_manual_fallback" ∨ s = "manual") ∧ v = .text s) ∨ ∃ n, Means s n ∧ v = .num n := by
  have hno : ∀ n, ¬ Means "auto" n ∧ ¬ Means "auto_with_manual_fallback" n ∧ ¬ Means "manual" n := by
    intro n
    rw [← pyInt_iff, ← pyInt_iff, ← pyInt_iff, show pyInt "auto" = none from by decide +kernel, show pyInt "manual" = none from by decide +kernel,
      show pyInt "auto_with_manual_fallback" = none from by decide +kernel]
    simp
  unfold intOrStr
  split
  · rename_i n hn
    have hm := (pyInt_iff _ _).1 hn
    simp only [pointerIncrement, reduceCtorEq, or_self, if_false, Except.ok.injEq]
    constructor
    · rintro rfl
      exact Or.inr ⟨n, hm, rfl⟩
    · rintro (⟨h, -⟩ | ⟨k, hk, rfl⟩)
      · rcases h with rfl | rfl | rfl
        · exact absurd hm (hno n).1
        · exact absurd hm (hno n).2.1
        · exact absurd hm (hno n).2.2
      · rw [← pyInt_iff, hn, Option.some.injEq] at hk
        rw [hk]
  · rename_i hn
    have hk : ∀ k, ¬ Means s k := by
      intro k
      rw [← pyInt_iff, hn]
      simp
    simp only [pointerIncrement, Val.text.injEq, hn]
    split
    · rename_i h
      simp only [Except.ok.injEq, hk, false_and, exists_false, or_false, h, true_and]
      exact eq_comm
    · rename_i h
      simp [h, hk]

example : pointerIncrement (intOrStr "32") = .ok (.num 32) := (C123_increment _ _).2 (Or.inr ⟨32, ⟨[], ['3', '2'], [], ['3', '2'], ['3', '2'],
  by decide, by decide, by decide, .digit (by decide) (.last (by decide)), Or.inl ⟨rfl, by decide⟩⟩, rfl⟩)

/-! ### Units -/

/-- The units of the models: performance for the Roofline models, cycles per cacheline for the ECM models; the others have none. -/
def ownUnit (m : String) : Option String :=
  if m = "RooflineFLOP" ∨ m = "RooflineASM" ∨ m = "RooflineIACA" then some "FLOP/s"
  else if m = "ECM" ∨ m = "ECMData" ∨ m = "ECMCPU" then some "cy/CL"
  else none

/-- A given unit is used; otherwise every model is reported in its own, if they agree on one. Missing: models with different units. -/
theorem C123_unit_partial (given : Option String) (pmodels : List String) :
    (∀ u, given = some u → unit given pmodels = u) ∧
      (given = none → (∀ m ∈ pmodels, ∀ m' ∈ pmodels, ∀ u u', ownUnit m = some u → ownUnit m' = some u' → u = u') →
        ∀ m ∈ pmodels, ∀ u, ownUnit m = some u → unit given pmodels = u) := by
  refine ⟨fun u h => by rw [h]; rfl, ?_⟩
  rintro rfl hall m hm u hu
  by_cases h : "RooflineFLOP" ∈ pmodels ∨ "RooflineASM" ∈ pmodels ∨ "RooflineIACA" ∈ pmodels
  · simp only [unit, h, if_true]
    rcases h with h | h | h <;> exact hall _ h m hm _ u rfl hu
  · simp only [unit, h, if_false]
    unfold ownUnit at hu
    split at hu
    · rename_i hr
      exfalso
      apply h
      rcases hr with rfl | rfl | rfl <;> simp [hm]
    · split at hu
      · simpa using hu
      · simp at hu

example : unit none ["ECM", "ECMData"] = "cy/CL" :=
  (C123_unit_partial none ["ECM", "ECMData"]).2 rfl (by simp [ownUnit]) "ECM" (by simp) _ rfl

/-- C123: the exact condition. Without a given unit, every model is reported in its own if and only if they agree on one. -/
theorem C123_unit_iff (pmodels : List String) : (∀ m ∈ pmodels, ∀ u, ownUnit m = some u → unit none pmodels = u) ↔
    ∀ m ∈ pmodels, ∀ m' ∈ pmodels, ∀ u u', ownUnit m = some u → ownUnit m' = some u' → u = u' := by
  refine ⟨fun h m hm m' hm' u u' hu hu' => ?_, (C123_unit_partial none pmodels).2 rfl⟩
  rw [← h m hm u hu, ← h m' hm' u' hu']

example : ¬ ∀ m ∈ ["ECMData", "RooflineASM"], ∀ u, ownUnit m = some u → unit none ["ECMData", "RooflineASM"] = u := by
  rw [C123_unit_iff]
  exact fun h => absurd (h "ECMData" (by simp) "RooflineASM" (by simp) "cy/CL" "FLOP/s" rfl rfl) (by decide)

/-- Of two models one is reported in the unit of the other. -/
theorem C123_negation_unit : ¬ ∀ (pmodels : List String), ∀ m ∈ pmodels, ∀ u, ownUnit m = some u → unit none pmodels = u := by
  intro h
  have := h ["ECM", "RooflineFLOP"] "ECM" (by simp) "cy/CL" (by decide)
  revert this
  decide

/-! ### In-core models -/

/-- The in-core model is the given one, if the machine has it, and the first of the machine otherwise. Missing: machines whose first model is not OSACA. -/
theorem C123_incore_partial (models : List (String × String)) (given : Option String) :
    (∀ m, given = some m → (∀ p, models.lookup m = some p → incoreModel models given = .ok (m, p)) ∧
        (models.lookup m = none → incoreModel models given = .error "KeyError")) ∧
      (given = none → ∀ m p rest, models = (m, p) :: rest → m = "OSACA" → incoreModel models given = .ok (m, p)) := by
  refine ⟨?_, ?_⟩
  · rintro m rfl
    exact ⟨fun p hp => by simp [incoreModel, incoreOption, getIncoreModel, hp], fun hp => by simp [incoreModel, incoreOption, getIncoreModel, hp]⟩
  · rintro rfl m p rest rfl rfl
    simp [incoreModel, incoreOption, getIncoreModel]

example : incoreModel [("OSACA", "SNB"), ("IACA", "SNB")] none = .ok ("OSACA", "SNB") :=
  (C123_incore_partial _ none).2 rfl _ _ _ rfl rfl

/-- The method itself, without a name, finds the first model of the description, so that its parameter is found under the name; without models it
ends in an error. -/
theorem C123_first (models : List (String × String)) :
    (∀ m p rest, models = (m, p) :: rest → ∃ n, getIncoreModel models none = .ok n ∧ models.lookup n = some p ∧ n = m) ∧
      ((∃ n, getIncoreModel models none = .ok n) ↔ models ≠ []) := by
  refine ⟨?_, ?_⟩
  · rintro m p rest rfl
    exact ⟨m, rfl, by simp, rfl⟩
  · cases models with
    | nil => simp [getIncoreModel]
    | cons e l => simp [getIncoreModel]

example : getIncoreModel [("IACA", "BDW"), ("OSACA", "BDW")] none = .ok "IACA" := rfl

/-- Without the option the first model of the machine is not used (the models are those of `BroadwellEP_E5-2630v4.yml:13-16`). -/
theorem C123_negation_incore : ¬ ∀ (m p : String) (rest : List (String × String)), incoreModel ((m, p) :: rest) none = .ok (m, p) := by
  intro h
  have := h "IACA" "BDW" [("OSACA", "BDW"), ("LLVM-MCA", "-mcpu=broadwell")]
  revert this
  decide +kernel

end Verif.Options
