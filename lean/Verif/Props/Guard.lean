import Verif.Lemmas.Guard
import Verif.Props.PerfOut
import Verif.Props.RegionOut

/-!
C136: benchmarks run only under the conditions of the machine description.
-/

namespace Verif.Guard

open Verif.PerfOut Verif.PhenoArgs

/-- A benchmark is created exactly if the machine fits or warnings are ignored. -/
theorem C136_machine (a : Args) (o n : List Char) (fits : Bool) :
    ((∃ b, create (some a) o n fits = .ok b) ↔ fits = true ∨ a.ignoreWarnings = true) ∧
    ((∃ b, createStandalone (some a) fits = .ok b) ↔ fits = true ∨ a.ignoreWarnings = true) := by
  have h : (∃ u, system fits a.ignoreWarnings = .ok u) ↔ fits = true ∨ a.ignoreWarnings = true := by
    unfold system
    cases fits <;> cases a.ignoreWarnings <;> simp
  rw [← h]
  unfold create createStandalone
  dsimp only
  constructor <;> cases system fits a.ignoreWarnings <;> simp only [reduceCtorEq, exists_false, Except.ok.injEq, exists_eq', exists_const]

/-- The phenomenological model is made exactly if it is wanted and there is one core. This is the claim if the metrics are complete. -/
theorem C136_model_partial (a : Args) (o n : List Char) (fits b : Bool) (h : create (some a) o n fits = .ok b)
    (hm : ¬ "INFORAMTION_REQUIRED".toList <:+: o ++ n) : b = false ↔ a.cores ≤ 1 ∧ a.noPheno = false := by
  simp only [create, if_neg hm] at h
  split at h
  · simp at h
  · simp only [Except.ok.injEq] at h
    subst h
    by_cases hc : a.cores > 1 <;> cases a.noPheno <;> simp_all

/-- The same for the stand-alone benchmark. -/
theorem C136_model_standalone_partial (a : Args) (fits b : Bool) (h : createStandalone (some a) fits = .ok b) :
    b = false ↔ a.cores ≤ 1 ∧ a.noPheno = false := by
  simp only [createStandalone] at h
  split at h
  · simp at h
  · simp only [Except.ok.injEq] at h
    subst h
    by_cases hc : a.cores > 1 <;> cases a.noPheno <;> simp_all

/-- Results are used exactly if the clock in the output fits or warnings are ignored; they are those in the output. -/
theorem C136_clock_partial (a : Args) (expected : ℚ) (ds : List PerfSpec.Line) (out : List Char) (h : PerfSpec.Output ds out)
    (hn : ∀ k c n ns, .event k c n ns ∈ ds → (∀ x, .metric k x ∉ ds) ∧ ∀ t, .info k t ∉ ds)
    (as bs : List PerfSpec.Line) (t : List Char) (x : ℚ) (hx : Float x t) (hds : ds = as ++ .info "CPU clock:".toList (t ++ " GHz".toList) :: bs)
    (h1 : ∀ y, .metric "CPU clock:".toList y ∉ bs) (h2 : ∀ u, .info "CPU clock:".toList u ∉ bs) :
    (ClockFits x expected ∨ a.ignoreWarnings = true → ∃ d, PerfOut.read out = .ok d ∧ perfctr a expected out = .ok d) ∧
    (¬ ClockFits x expected → a.ignoreWarnings = false → perfctr a expected out = .error "SystemExit") := by
  obtain ⟨d, hd, -, hi, -⟩ := C106_output_partial ds out h hn
  have hl := hi as bs _ _ hds h1 h2
  obtain ⟨hc1, hc2⟩ := checkClock_text hx expected a.ignoreWarnings
  constructor
  · intro hc
    refine ⟨d, hd, ?_⟩
    simp only [perfctr, hd, hl, hc1 hc]
  · intro hc hi
    simp only [perfctr, hd, hl, hc2 hc hi]

/-- The stand-alone benchmark. -/
theorem C136_clock_standalone_partial (a : Args) (expected : ℚ) (seen : List (List Char)) (ds : List RegionSpec.RLine) (out : List Char)
    (h : RegionSpec.Output ds out) (hp : ∀ k c n ns, .line (.event k c n ns) ∈ ds → ':' ∉ c)
    (hn : ∀ k c n ns, .line (.event k c n ns) ∈ ds → (∀ x, .line (.metric k x) ∉ ds) ∧ ∀ t, .line (.info k t) ∉ ds)
    (as bs : List RegionSpec.RLine) (t : List Char) (x : ℚ) (hx : Float x t) (hds : ds = as ++ .line (.info "CPU clock:".toList (t ++ " GHz".toList)) :: bs)
    (h1 : ∀ y, .line (.metric "CPU clock:".toList y) ∉ bs) (h2 : ∀ u, .line (.info "CPU clock:".toList u) ∉ bs) :
    (ClockFits x expected ∨ a.ignoreWarnings = true → ∃ s, RegionOut.read seen out = .ok s ∧ perfctrStandalone a expected seen out = .ok s) ∧
    (¬ ClockFits x expected → a.ignoreWarnings = false → perfctrStandalone a expected seen out = .error "SystemExit") := by
  obtain ⟨s, hd, -, -, hi, -⟩ := RegionOut.C126_regions_partial ds out seen h hp hn
  have hl := hi as bs _ _ hds h2 (by
    intro cs es y hb
    exact absurd (by simp [hb]) (h1 y))
  obtain ⟨hc1, hc2⟩ := checkClock_text hx expected a.ignoreWarnings
  constructor
  · intro hc
    refine ⟨s, hd, ?_⟩
    simp only [perfctrStandalone, hd, hl, hc1 hc]
  · intro hc hi
    simp only [perfctrStandalone, hd, hl, hc2 hc hi]

/-- Results of the stand-alone benchmark without a clock are not used. -/
theorem C136_standalone_needs_clock (a : Args) (expected : ℚ) (seen : List (List Char)) (ds : List RegionSpec.RLine) (out : List Char)
    (h : RegionSpec.Output ds out) (hp : ∀ k c n ns, .line (.event k c n ns) ∈ ds → ':' ∉ c)
    (hn : ∀ k c n ns, .line (.event k c n ns) ∈ ds → (∀ x, .line (.metric k x) ∉ ds) ∧ ∀ t, .line (.info k t) ∉ ds)
    (h1 : ∀ y, .line (.metric "CPU clock:".toList y) ∉ ds) (h2 : ∀ u, .line (.info "CPU clock:".toList u) ∉ ds)
    (h3 : ∀ c n ns, .line (.event "CPU clock:".toList c n ns) ∉ ds) : perfctrStandalone a expected seen out = .error "KeyError" := by
  obtain ⟨s, hd, -, -, -, hi, -⟩ := RegionOut.C126_regions_partial ds out seen h hp hn
  have hl := hi [] "CPU clock:".toList (by
    rintro as bs x rfl
    exact absurd (by simp) (h1 x)) (by
    rintro as bs c n ns rfl
    exact absurd (by simp) (h3 c n ns)) (fun _ => h2)
  simp only [perfctrStandalone, hd, hl]

/-- A placeholder is not recognised, because it is misspelt in the test: the model is made from metrics that are not defined. -/
theorem C136_negation_incomplete : create (some ⟨1, false, false⟩) "INFORMATION_REQUIRED".toList "INFORMATION_REQUIRED".toList true = .ok false ∧
    ¬ Complete "INFORMATION_REQUIRED".toList := by
  refine ⟨by decide +kernel, ?_⟩
  unfold Complete
  decide

/-- Results without a clock are used. -/
theorem C136_negation_no_clock (a : Args) (expected : ℚ) (ds : List PerfSpec.Line) (out : List Char) (h : PerfSpec.Output ds out)
    (hn : ∀ k c n ns, .event k c n ns ∈ ds → (∀ x, .metric k x ∉ ds) ∧ ∀ t, .info k t ∉ ds) (h1 : ∀ y, .metric "CPU clock:".toList y ∉ ds)
    (h2 : ∀ u, .info "CPU clock:".toList u ∉ ds) (h3 : ∀ c n ns, .event "CPU clock:".toList c n ns ∉ ds) : ∃ d, perfctr a expected out = .ok d := by
  obtain ⟨d, hd, -, -, -, hi⟩ := C106_output_partial ds out h hn
  exact ⟨d, by simp only [perfctr, hd, hi _ h1 h2 h3]⟩

/-- The arguments are documented as optional, but a benchmark cannot be created without them. -/
theorem C136_negation_arguments (o n : List Char) (fits : Bool) :
    create none o n fits = .error "AttributeError" ∧ createStandalone none fits = .error "AttributeError" := ⟨rfl, rfl⟩

/-- 2.2 GHz were measured: 2.21 GHz fits, 2.3 GHz does not. -/
example : Float (11 / 5) "2.2".toList ∧ ClockFits (11 / 5) 2210000000 ∧ ¬ ClockFits (11 / 5) 2300000000 := by
  refine ⟨.inl (.inr ⟨⟨2, [2], by decide⟩, by decide, by norm_num [Tables.Dec.value], by decide⟩), ?_, ?_⟩
  · unfold ClockFits; norm_num
  · unfold ClockFits; norm_num

/-- The sample of C126 has a clock. -/
example : RegionOut.sampleData = [] ++ .line (.info "CPU clock:".toList ("2.2".toList ++ " GHz".toList)) :: RegionOut.sampleData.tail ∧
    (∀ y, .line (.metric "CPU clock:".toList y) ∉ RegionOut.sampleData.tail) ∧ ∀ u, .line (.info "CPU clock:".toList u) ∉ RegionOut.sampleData.tail := by
  refine ⟨rfl, ?_, ?_⟩ <;> simp [RegionOut.sampleData]

example : (perfctrStandalone ⟨1, false, false⟩ 2210000000 [] RegionOut.sampleOut).map (·.seen) = .ok ["copy".toList, "add".toList] ∧
    (perfctrStandalone ⟨1, false, false⟩ 2300000000 [] RegionOut.sampleOut).map (·.seen) = .error "SystemExit" := by
  constructor <;> decide +kernel

/-- That of C106 has none. -/
example : (∀ y, .metric "CPU clock:".toList y ∉ sampleData) ∧ (∀ u, .info "CPU clock:".toList u ∉ sampleData) ∧
    ∀ c n ns, .event "CPU clock:".toList c n ns ∉ sampleData := by
  refine ⟨?_, ?_, ?_⟩ <;> simp [sampleData]

example : create (some ⟨1, false, false⟩) "max(UOPS_P0:PMC0, UOPS_P1:PMC1)".toList "UOPS_P2:PMC2".toList true = .ok false := by decide +kernel

end Verif.Guard
