import Verif.Lemmas.Reports

/-!
C132: reports are complete and warn about wrong counts; C133: tables of data transfers show values in the right columns.
-/

namespace Verif.Reports

/-- C132: printed to the standard output, as from the command line, all of a report arrives there, apart from warnings. -/
theorem C132_stdout (m : Model) (r : Run) : Complete .stdout (session .stdout m r) := by
  simp only [session, complete_append, complete_when, complete_cons, complete_nil, report_stdout]
  simp

/-- C132, partial: a report printed to a file is written to it completely exactly if `Written`. Missing: the other reports (`C132_negation_file`). -/
theorem C132_file_partial (m : Model) (r : Run) : Complete .file (session .file m r) ↔ Written r m := by
  rw [← report_file]
  simp only [session, complete_append, complete_when, complete_cons, complete_nil]
  simp

/-- C132: what is printed does not depend on where it is printed to, and a more verbose report contains all of a less verbose one, in the same order. -/
theorem C132_verbose (m : Model) (out out' : Stream) (r : Run) (v : Nat) (hv : r.verbose ≤ v) :
    (pieces (session out m r)).Sublist (pieces (session out' m { r with verbose := v })) := by
  have h0 : decide (r.verbose > 0) = true → decide (v > 0) = true := by simp; omega
  have h1 : decide (r.verbose > 1) = true → decide (v > 1) = true := by simp; omega
  have hs : (session out m r).Sublist (session out m { r with verbose := v }) :=
    ((((List.Sublist.refl _).append (when_mono h1 (.refl _))).append (when_mono h0 (.refl _))).append (report_mono m out r v hv)).append (.refl _)
  have he : ∀ r, pieces (session out m r) = pieces (session out' m r) := by
    intro r
    simp only [session, pieces_append, pieces_when, report_pieces m out out']
    rfl
  rw [← he]
  exact hs.map _

/-- C132: the report of a model shows its results, each in its unit, and no others. -/
theorem C132_results (m : Model) (out : Stream) (r : Run) (p : Piece) (hp : IsResult p) :
    p ∈ pieces (session out m r) ↔ Result r m p := by
  rw [session_result m out r p hp]
  cases m with
  | ecmData => exact ecmData_result out r p hp
  | ecmCpu => exact ecmCpu_result out r p hp
  | ecm => exact ecm_result out r p hp
  | rooflineFlop => exact rooflineFlop_result out r p hp
  | rooflineAsm => exact rooflineAsm_result out r p hp
  | benchmark => exact benchmark_result out r p hp
  | standalone => exact standalone_result out r p hp
  | lc => exact lc_result out r p hp

/-- C132, partial: if a model other than the benchmarks reports a number in FLOP/s for a kernel with complex variables, there is a warning, and only such
kernels are warned about. Missing: the benchmarks (`C132_negation_warning`). -/
theorem C132_warning_partial (m : Model) (out : Stream) (r : Run) :
    ((.stderr, .warning) ∈ session out m r → ∃ t ∈ r.types, "_Complex" ∈ t) ∧
    (m ≠ .benchmark → m ≠ .standalone → ShowsFlops (session out m r) → (∃ t ∈ r.types, "_Complex" ∈ t) → (.stderr, .warning) ∈ session out m r) := by
  have hc : (∃ t ∈ r.types, "_Complex" ∈ t) ↔ r.complex = true := by simp [Run.complex]
  rw [hc]
  constructor
  · cases m <;>
    simp only [session, report, ecm, ecmData, ecmCpu, rooflineFlop, rooflineAsm, benchmark, standalone, measured, layerConditions, warnUnit, List.mem_append, mem_when,
      List.mem_map, List.mem_cons, List.mem_flatMap, Prod.mk.injEq, reduceCtorEq, and_false, false_or, or_false, List.not_mem_nil, exists_false]
    all_goals try simp
    all_goals try (intro h; split at h <;> simp_all)
    all_goals tauto
  · intro hb hs hf hx
    obtain ⟨n, o, hf⟩ := hf
    have hu : m = .rooflineFlop ∨ r.unit = "FLOP/s" := by
      cases m <;>
      simp only [session, report, ecm, ecmData, ecmCpu, rooflineFlop, rooflineAsm, benchmark, standalone, measured, layerConditions, warnUnit, pieces_append, pieces_when,
        pieces_flatMap, pieces_map, List.mem_append, List.mem_map, List.mem_flatMap] at hf hb hs ⊢
      all_goals try exact absurd rfl hb
      all_goals try exact absurd rfl hs
      all_goals simp [pieces, List.mem_ite_nil_right] at hf ⊢
      all_goals try (split at hf <;> simp at hf)
      all_goals tauto
    have hw : (.stderr, .warning) ∈ report m out r := by
      cases m
      case benchmark => exact absurd rfl hb
      case standalone => exact absurd rfl hs
      case rooflineFlop => simp [report, rooflineFlop, mem_when, hx]
      case lc =>
        simp only [session, report, layerConditions, pieces_append, pieces_when, pieces_flatMap, pieces_map, List.mem_append, List.mem_flatMap, List.mem_map] at hf
        simp [pieces] at hf
      all_goals
        have hu : r.unit = "FLOP/s" := by simpa using hu
        simp [report, ecm, ecmData, ecmCpu, rooflineAsm, warnUnit, mem_when, hx, hu]
    simp [session, hw]

/-- Concrete settings. -/
def sample : Run :=
  { verbose := 0, unit := "FLOP/s", noPheno := false, types := [["double", "_Complex"], ["int"]], cycles := ["L2", "L3", "MEM"], penalty := true, bwKernel := true,
    bottlenecks := [none, some "L1-L2", some "MEM"], cpuBound := false, lcs := [("L1", ["True"])], transfers := ["L1", "MEM"], regions := ["loop"],
    description := false }

/-- C132, negation: the penalty of `ECMData`, the parts of verbose `ECM` reports, the tables of benchmarks and all layer conditions are missing in the file. -/
theorem C132_negation_file :
    ¬Complete .file (session .file .ecmData sample) ∧ ¬Complete .file (session .file .ecm { sample with verbose := 2 }) ∧
    ¬Complete .file (session .file .benchmark sample) ∧ ¬Complete .file (session .file .standalone sample) ∧ ¬Complete .file (session .file .lc sample) := by
  simp [C132_file_partial, Written, sample]

/-- C132, negation: a benchmark reports FLOP/s of complex kernels without a warning. -/
theorem C132_negation_warning : ShowsFlops (session .stdout .benchmark sample) ∧ ∀ out, (out, .warning) ∉ session .stdout .benchmark sample := by
  constructor
  · exact ⟨"performance", "", by simp [session, report, benchmark, measured, pieces, when, sample]⟩
  · intro out
    simp [session, report, benchmark, measured, when, sample]

example : Written { sample with penalty := false } .ecmData ∧ Written sample .ecm ∧ Written { sample with noPheno := true } .benchmark ∧
    ShowsFlops (session .file .ecmData sample) ∧ (.stderr, .warning) ∈ session .file .ecmData sample := by
  refine ⟨rfl, by simp [Written, sample], by simp [Written, sample], ⟨"cycles", "L2", ?_⟩, ?_⟩ <;> decide

example : Result sample .standalone (.value "performance" "loop" "LUP/s") ∧ Result sample .lc (.info "condition" "True") ∧
    Result { sample with verbose := 2 } .ecm (.value "cycles" "L3" "FLOP/s") ∧ ¬ Result sample .rooflineFlop (.value "performance" "MEM" "FLOP/s") := by
  refine ⟨.region _ _ _ (by simp [sample]) (.measured _ _ (by simp [measurements])), .condition ("L1", ["True"]) _ (by simp [sample]) (by simp),
    .dataPart _ (by decide) (.cycles "L3" (by simp [sample])), ?_⟩
  exact fun h => absurd ((C132_results .rooflineFlop .stdout sample (.value "performance" "MEM" "FLOP/s") trivial).2 h) (by decide +kernel)

/-! ### C133 -/

/-- C133: the table of `Benchmark` shows each value below the name of its metric, and all values if only loads, misses, stores and evicts are measured. -/
theorem C133_benchmark (metrics : List (String × String)) :
    Below benchmarkHead metrics (benchmarkRow metrics) ∧
      (Shown benchmarkHead metrics ↔ ∀ m ∈ metrics, m.1 = "loads" ∨ m.1 = "misses" ∨ m.1 = "stores" ∨ m.1 = "evicts") := by
  refine ⟨⟨by simp [benchmarkRow], fun i n c hi hc => ?_⟩, by simp [Shown, benchmarkHead]⟩
  rw [benchmarkRow, List.getElem?_map, hi] at hc
  simp only [Option.map_some, Option.some.injEq] at hc
  cases hl : metrics.lookup n with
  | none =>
    refine Or.inr ⟨fun hm => ?_, by rw [← hc, hl]; rfl⟩
    obtain ⟨m, hm', rfl⟩ := List.mem_map.1 hm
    exact lookup_ne_none hm' hl
  | some v =>
    rw [hl] at hc
    exact Or.inl (hc ▸ mem_of_lookup hl)

/-- C133, partial: the table of a stand-alone benchmark shows the values of a cache below the names of their metrics exactly if the cache has the same metrics as
the first one. Missing: other caches (`C133_negation_columns`). -/
theorem C133_standalone_partial (first : String × List (String × String)) (caches : List (String × List (String × String))) (metrics : List (String × String))
    (hf : (first.2.map (·.1)).Nodup) (hn : (metrics.map (·.1)).Nodup) (hv : ∀ m ∈ metrics, m.2 ≠ "-") :
    Below (standaloneHead (first :: caches)) metrics (standaloneRow metrics) ↔ ∀ n, n ∈ metrics.map (·.1) ↔ n ∈ first.2.map (·.1) := by
  obtain ⟨sp, hp, h1, h2⟩ := standaloneRow_eq metrics
  have hl : (standaloneHead (first :: caches)).length = first.2.length := by simp [standaloneHead]
  have hl2 : (standaloneRow metrics).length = metrics.length := by rw [h2, List.length_map, hp.length_eq]
  constructor
  · rintro ⟨hlen, hcell⟩
    have hsub : first.2.map (·.1) ⊆ metrics.map (·.1) := by
      intro n hmem
      have hmem' : n ∈ standaloneHead (first :: caches) := by simpa [standaloneHead] using hmem
      obtain ⟨i, hi, hin⟩ := List.getElem_of_mem hmem'
      have hi' : i < (standaloneRow metrics).length := by omega
      have hc := hcell i n _ (by rw [List.getElem?_eq_getElem hi, hin]) (List.getElem?_eq_getElem hi')
      rcases hc with hc | ⟨-, hc⟩
      · exact List.mem_map.2 ⟨_, hc, rfl⟩
      · have : (standaloneRow metrics)[i] ∈ metrics.map (·.2) := by
          have hm := List.getElem_mem hi'
          simp only [h2, List.mem_map] at hm ⊢
          obtain ⟨m, hm, he⟩ := hm
          exact ⟨m, hp.mem_iff.1 hm, by simp only [he]⟩
        obtain ⟨m, hm, he⟩ := List.mem_map.1 this
        exact absurd (he.trans hc) (hv m hm)
    have hperm : (first.2.map (·.1)).Perm (metrics.map (·.1)) := by
      refine (List.subperm_of_subset hf hsub).perm_of_length_le ?_
      simp only [List.length_map]
      omega
    exact fun n => hperm.mem_iff.symm
  · intro h
    have hperm : (metrics.map (·.1)).Perm (first.2.map (·.1)) := (List.perm_ext_iff_of_nodup hn hf).2 h
    have hhead : standaloneHead (first :: caches) = sp.map (·.1) := by
      rw [h1]
      exact ((List.perm_insertionSort _ _).trans (hperm.symm.trans (List.perm_insertionSort _ _).symm)).eq_of_pairwise'
        (List.pairwise_insertionSort (· ≤ ·) _) (List.pairwise_insertionSort (· ≤ ·) _)
    refine ⟨by rw [hhead, h2]; simp, fun i n c hi hc => Or.inl ?_⟩
    rw [hhead, List.getElem?_map] at hi
    rw [h2, List.getElem?_map] at hc
    cases hs : sp[i]? with
    | none => simp [hs] at hi
    | some m =>
      simp only [hs, Option.map_some, Option.some.injEq] at hi hc
      rw [← hi, ← hc]
      exact hp.mem_iff.1 (List.mem_of_getElem? hs)

/-- C133, negation: if the accesses of the second cache are not measured, its evicts and misses are shown as accesses and evicts. -/
theorem C133_negation_columns :
    let l1 := ("L1", [("accesses", "6"), ("misses", "2"), ("evicts", "1")])
    let l2 := ("L2", [("misses", "2"), ("evicts", "1")])
    standaloneHead [l1, l2] = ["accesses", "evicts", "misses"] ∧ standaloneRow l2.2 = ["1", "2"] ∧
      ¬Below (standaloneHead [l1, l2]) l2.2 (standaloneRow l2.2) := by
  refine ⟨by decide +kernel, by decide +kernel, fun h => ?_⟩
  have := h.length
  exact absurd this (by decide +kernel)

example : Below (standaloneHead [("L1", [("loads", "4"), ("accesses", "6")]), ("L2", [("accesses", "2"), ("loads", "1")])]) [("accesses", "2"), ("loads", "1")]
    (standaloneRow [("accesses", "2"), ("loads", "1")]) :=
  (C133_standalone_partial _ _ _ (by decide) (by decide) (by decide)).2 (by simp; tauto)

end Verif.Reports
