import Verif.Spec.Reports

/-!
Lemmas on reports.
-/

namespace Verif.Reports

theorem complete_append (out : Stream) (a b : List (Stream × Piece)) : Complete out (a ++ b) ↔ Complete out a ∧ Complete out b := by
  simp only [Complete, List.mem_append, or_imp, forall_and]

theorem complete_when (out : Stream) (c : Bool) (a : List (Stream × Piece)) : Complete out (when c a) ↔ (c = true → Complete out a) := by
  cases c <;> simp [when, Complete]

theorem complete_nil (out : Stream) : Complete out [] := by simp [Complete]

theorem complete_cons (out : Stream) (p : Stream × Piece) (a : List (Stream × Piece)) :
    Complete out (p :: a) ↔ (p.1 = out ∨ p = (.stderr, .warning)) ∧ Complete out a := by simp [Complete]

theorem complete_map {α} (out : Stream) (l : List α) (f : α → Stream × Piece) :
    Complete out (l.map f) ↔ ∀ x ∈ l, (f x).1 = out ∨ f x = (.stderr, .warning) := by simp [Complete]

theorem complete_flatMap {α} (out : Stream) (l : List α) (f : α → List (Stream × Piece)) : Complete out (l.flatMap f) ↔ ∀ x ∈ l, Complete out (f x) := by
  simp only [Complete, List.mem_flatMap]
  constructor
  · exact fun h x hx p hp => h p ⟨x, hx, hp⟩
  · rintro h p ⟨x, hx, hp⟩
    exact h x hx p hp

theorem complete_warnUnit (out : Stream) (r : Run) : Complete out (warnUnit r) := by
  simp [warnUnit, complete_when, complete_cons, complete_nil]

theorem report_stdout (m : Model) (r : Run) : Complete .stdout (report m .stdout r) := by
  cases m <;>
  simp only [report, ecm, ecmData, ecmCpu, rooflineFlop, rooflineAsm, benchmark, standalone, measured, layerConditions, complete_append, complete_when, complete_cons,
    complete_nil, complete_map, complete_flatMap, complete_warnUnit] <;> simp
  all_goals split <;> simp [complete_cons, complete_nil]

theorem report_file (m : Model) (r : Run) : Complete .file (report m .file r) ↔ Written r m := by
  cases m <;>
  simp only [report, Written, ecm, ecmData, ecmCpu, rooflineFlop, rooflineAsm, benchmark, standalone, measured, layerConditions, complete_append, complete_when,
    complete_cons, complete_nil, complete_map, complete_flatMap, complete_warnUnit]
  · simp
  · simp
  · simp
  · split <;> simp [complete_cons, complete_nil]
  · split <;> simp [complete_cons, complete_nil]
  · simp
  · simp [List.eq_nil_iff_forall_not_mem]
  · simp [List.eq_nil_iff_forall_not_mem]

theorem when_mono {c c' : Bool} (h : c = true → c' = true) {a a' : List (Stream × Piece)} (ha : a.Sublist a') : (when c a).Sublist (when c' a') := by
  cases c <;> cases c' <;> simp_all [when]

theorem flatMap_mono {α} (l : List α) (f g : α → List (Stream × Piece)) (h : ∀ x, (f x).Sublist (g x)) : (l.flatMap f).Sublist (l.flatMap g) := by
  induction l with
  | nil => simp
  | cons x l ih => exact (h x).append ih

theorem report_mono (m : Model) (out : Stream) (r : Run) (v : Nat) (hv : r.verbose ≤ v) : (report m out r).Sublist (report m out { r with verbose := v }) := by
  have h0 : decide (r.verbose > 0) = true → decide (v > 0) = true := by simp; omega
  have h1 : decide (r.verbose > 1) = true → decide (v > 1) = true := by simp; omega
  have h2 : decide (r.verbose > 2) = true → decide (v > 2) = true := by simp; omega
  have h3 : decide (r.verbose ≥ 3) = true → decide (v ≥ 3) = true := by simp; omega
  have h4 : decide (r.verbose ≥ 1) = true → decide (v ≥ 1) = true := by simp; omega
  have h5 : (decide (r.verbose > 1) && r.bwKernel) = true → (decide (v > 1) && r.bwKernel) = true := by
    simp only [Bool.and_eq_true]; exact fun h => ⟨h1 h.1, h.2⟩
  have hcpu : ∀ out, (ecmCpu out r).Sublist (ecmCpu out { r with verbose := v }) := fun out =>
    (((when_mono h2 (.refl _)).append (when_mono h1 (.refl _))).append (.refl _)).append (.refl _)
  have hdata : ∀ out, (ecmData out r).Sublist (ecmData out { r with verbose := v }) := fun out =>
    (((((when_mono h1 (.refl _)).append (.refl _)).append (.refl _)).append (when_mono h5 (.refl _))).append (when_mono h1 (.refl _))).append (.refl _)
  have hmeas : ∀ n, (measured out r n).Sublist (measured out { r with verbose := v } n) := fun n =>
    ((((when_mono h1 (.refl _)).append (when_mono h0 (.refl _))).append (.refl _)).append (when_mono h0 (.refl _))).append (.refl _)
  cases m
  · exact ((when_mono h1 ((hcpu _).append (hdata _))).append (.refl _)).append (.refl _)
  · exact hdata out
  · exact hcpu out
  · exact (((when_mono h3 (.refl _)).append (when_mono h4 (.refl _))).append (.refl _)).append (.refl _)
  · exact (((when_mono h3 (.refl _)).append (when_mono h4 (.refl _))).append (.refl _)).append (.refl _)
  · exact hmeas ""
  · exact flatMap_mono _ _ _ fun n => (List.Sublist.refl _).append (hmeas n)
  · exact (when_mono h2 (.refl _)).append (.refl _)

theorem pieces_append (a b : List (Stream × Piece)) : pieces (a ++ b) = pieces a ++ pieces b := List.map_append

theorem pieces_when (c : Bool) (a : List (Stream × Piece)) : pieces (when c a) = if c then pieces a else [] := by cases c <;> simp [when, pieces]

theorem pieces_flatMap {α} (l : List α) (f : α → List (Stream × Piece)) : pieces (l.flatMap f) = l.flatMap fun x => pieces (f x) := by
  simp [pieces, List.map_flatMap]

theorem pieces_map {α} (l : List α) (f : α → Stream × Piece) : pieces (l.map f) = l.map fun x => (f x).2 := by simp [pieces]

theorem report_pieces (m : Model) (out out' : Stream) (r : Run) : pieces (report m out r) = pieces (report m out' r) := by
  cases m <;>
  simp only [report, ecm, ecmData, ecmCpu, rooflineFlop, rooflineAsm, benchmark, standalone, measured, layerConditions, pieces_append, pieces_when, pieces_flatMap,
    pieces_map]
  all_goals first | rfl | (cases r.cpuBound <;> rfl)

theorem mem_when (p : Stream × Piece) (c : Bool) (a : List (Stream × Piece)) : p ∈ when c a ↔ c = true ∧ p ∈ a := by cases c <;> simp [when]

theorem lookup_ne_none {l : List (String × String)} {m : String × String} (h : m ∈ l) : l.lookup m.1 ≠ none := by
  induction l with
  | nil => simp at h
  | cons a l ih =>
    rw [List.lookup_cons]
    cases ha : m.1 == a.1 with
    | true => simp
    | false =>
      rcases List.mem_cons.1 h with rfl | h
      · simp at ha
      · simpa using ih h

theorem mem_of_lookup {l : List (String × String)} {n v : String} (h : l.lookup n = some v) : (n, v) ∈ l := by
  induction l with
  | nil => simp at h
  | cons a l ih =>
    rw [List.lookup_cons] at h
    cases ha : n == a.1 with
    | true =>
      rw [ha] at h
      simp only [Option.some.injEq] at h
      rw [eq_of_beq ha, ← h]
      exact List.mem_cons_self
    | false =>
      rw [ha] at h
      exact List.mem_cons_of_mem _ (ih h)

/-- The cells of a stand-alone benchmark in the order of the names. -/
theorem standaloneRow_eq (metrics : List (String × String)) :
    ∃ sp : List (String × String), sp.Perm metrics ∧ sp.map (·.1) = (metrics.map (·.1)).insertionSort (· ≤ ·) ∧ standaloneRow metrics = sp.map (·.2) :=
  ⟨_, List.perm_insertionSort _ _, List.map_insertionSort _ _ _ _ (fun _ _ _ _ => Iff.rfl), rfl⟩

theorem mem_pieces_cons (p : Piece) (a : Stream × Piece) (l : List (Stream × Piece)) : p ∈ pieces (a :: l) ↔ p = a.2 ∨ p ∈ pieces l := by simp [pieces]

theorem mem_pieces_nil (p : Piece) : ¬p ∈ pieces [] := by simp [pieces]

theorem mem_pieces_append (p : Piece) (a b : List (Stream × Piece)) : p ∈ pieces (a ++ b) ↔ p ∈ pieces a ∨ p ∈ pieces b := by simp [pieces_append]

theorem mem_pieces_when (p : Piece) (c : Bool) (a : List (Stream × Piece)) : p ∈ pieces (when c a) ↔ c = true ∧ p ∈ pieces a := by
  cases c <;> simp [when, pieces]

theorem mem_pieces_map {α} (p : Piece) (l : List α) (f : α → Stream × Piece) : p ∈ pieces (l.map f) ↔ ∃ x ∈ l, p = (f x).2 := by
  simp [pieces, eq_comm]

theorem mem_pieces_flatMap {α} (p : Piece) (l : List α) (f : α → List (Stream × Piece)) : p ∈ pieces (l.flatMap f) ↔ ∃ x ∈ l, p ∈ pieces (f x) := by
  simp only [pieces, List.mem_map, List.mem_flatMap]
  constructor
  · rintro ⟨a, ⟨x, hx, ha⟩, rfl⟩
    exact ⟨x, hx, a, ha, rfl⟩
  · rintro ⟨x, hx, a, ha, rfl⟩
    exact ⟨a, ⟨x, hx, ha⟩, rfl⟩

theorem not_warnUnit (p : Piece) (hp : IsResult p) (r : Run) : ¬p ∈ pieces (warnUnit r) := by
  simp only [warnUnit, mem_pieces_when, mem_pieces_cons, mem_pieces_nil]
  rintro ⟨-, rfl | h⟩
  · exact hp
  · exact h

theorem info_ne (n o : String) (p : Piece) (hp : IsResult p) (h1 : n ≠ "layer conditions") (h2 : n ≠ "condition") : p ≠ .info n o := by
  rintro rfl
  exact hp.elim h1 h2

theorem session_result (m : Model) (out : Stream) (r : Run) (p : Piece) (hp : IsResult p) : p ∈ pieces (session out m r) ↔ p ∈ pieces (report m out r) := by
  simp only [session, mem_pieces_append, mem_pieces_when, mem_pieces_cons, mem_pieces_nil,
    info_ne "header" "" p hp (by decide) (by decide), info_ne "kernel code" "" p hp (by decide) (by decide), info_ne "variables" "" p hp (by decide) (by decide),
    info_ne "kernel" "" p hp (by decide) (by decide), info_ne "constants" "" p hp (by decide) (by decide), info_ne "end" "" p hp (by decide) (by decide),
    and_false, or_false, false_or]

theorem ecmData_result (out : Stream) (r : Run) (p : Piece) (hp : IsResult p) : p ∈ pieces (ecmData out r) ↔ Result r .ecmData p := by
  simp only [ecmData, mem_pieces_append, mem_pieces_when, mem_pieces_cons, mem_pieces_nil, mem_pieces_map, not_warnUnit p hp,
    info_ne "verbose infos" "" p hp (by decide) (by decide), info_ne "memory bandwidth kernel" "" p hp (by decide) (by decide),
    info_ne "data transfers" "" p hp (by decide) (by decide), and_false, or_false, false_or]
  constructor
  · rintro (⟨l, hl, rfl⟩ | ⟨h, rfl⟩)
    · exact .cycles l hl
    · exact .penalty h
  · rintro (⟨l, hl⟩ | h)
    · exact .inl ⟨l, hl, rfl⟩
    · exact .inr ⟨h, rfl⟩

theorem ecmCpu_result (out : Stream) (r : Run) (p : Piece) (hp : IsResult p) : p ∈ pieces (ecmCpu out r) ↔ Result r .ecmCpu p := by
  simp only [ecmCpu, mem_pieces_append, mem_pieces_when, mem_pieces_cons, mem_pieces_nil, not_warnUnit p hp,
    info_ne "in-core model output" "" p hp (by decide) (by decide), info_ne "pointer_increment" "" p hp (by decide) (by decide),
    info_ne "elements_per_block" "" p hp (by decide) (by decide), info_ne "port cycles" "" p hp (by decide) (by decide),
    info_ne "uops" "" p hp (by decide) (by decide), and_false, or_false, false_or, decide_eq_true_eq]
  constructor
  · rintro (⟨h, rfl⟩ | rfl | rfl)
    · exact .throughput h
    · exact .comp
    · exact .regL1
  · intro h
    cases h with
    | comp => exact .inr (.inl rfl)
    | regL1 => exact .inr (.inr rfl)
    | throughput h => exact .inl ⟨h, rfl⟩

theorem ecm_result (out : Stream) (r : Run) (p : Piece) (hp : IsResult p) : p ∈ pieces (ecm out r) ↔ Result r .ecm p := by
  simp only [ecm, mem_pieces_append, mem_pieces_when, mem_pieces_cons, mem_pieces_nil, not_warnUnit p hp, ecmCpu_result _ r p hp, ecmData_result _ r p hp,
    or_false, decide_eq_true_eq]
  constructor
  · rintro (⟨h, h' | h'⟩ | rfl)
    · exact .cpuPart _ h h'
    · exact .dataPart _ h h'
    · exact .total
  · intro h
    cases h with
    | total => exact .inr rfl
    | cpuPart _ h h' => exact .inl ⟨h, .inl h'⟩
    | dataPart _ h h' => exact .inl ⟨h, .inr h'⟩

theorem rooflineFlop_result (out : Stream) (r : Run) (p : Piece) (hp : IsResult p) : p ∈ pieces (rooflineFlop out r) ↔ Result r .rooflineFlop p := by
  have hw : p ≠ .warning := by rintro rfl; exact hp
  simp only [rooflineFlop, mem_pieces_append, mem_pieces_when, mem_pieces_cons, mem_pieces_nil, mem_pieces_map, hw,
    info_ne "results" "" p hp (by decide) (by decide), info_ne "verbose infos" "" p hp (by decide) (by decide), and_false, or_false, false_or,
    decide_eq_true_eq, List.mem_filterMap, id]
  constructor
  · rintro (⟨h, rfl | ⟨l, ⟨_, hl, rfl⟩, rfl⟩⟩ | h)
    · exact .flopCpu h
    · exact .flopLevel l h hl
    · cases hc : r.cpuBound <;> simp only [hc, if_true, if_false, Bool.false_eq_true, mem_pieces_cons, mem_pieces_nil, or_false] at h
      · rcases h with rfl | rfl
        · exact .flopMem hc
        · exact .flopIntensity hc
      · subst h
        exact .flopMax hc
  · intro h
    cases h with
    | flopCpu h => exact .inl ⟨h, .inl rfl⟩
    | flopLevel l h hl => exact .inl ⟨h, .inr ⟨l, ⟨_, hl, rfl⟩, rfl⟩⟩
    | flopMax h => simp [h, mem_pieces_cons]
    | flopMem h => simp [h, mem_pieces_cons]
    | flopIntensity h => simp [h, mem_pieces_cons]

theorem rooflineAsm_result (out : Stream) (r : Run) (p : Piece) (hp : IsResult p) : p ∈ pieces (rooflineAsm out r) ↔ Result r .rooflineAsm p := by
  simp only [rooflineAsm, mem_pieces_append, mem_pieces_when, mem_pieces_cons, mem_pieces_nil, mem_pieces_map, not_warnUnit p hp,
    info_ne "results" "" p hp (by decide) (by decide), info_ne "cpu bottleneck" "" p hp (by decide) (by decide), and_false, or_false, false_or,
    decide_eq_true_eq, List.mem_filterMap, id]
  constructor
  · rintro (⟨h, rfl | ⟨l, ⟨_, hl, rfl⟩, rfl⟩⟩ | h)
    · exact .asmCpu h
    · exact .asmLevel l h hl
    · cases hc : r.cpuBound <;> simp only [hc, if_true, if_false, Bool.false_eq_true, mem_pieces_cons, mem_pieces_nil, or_false] at h
      · rcases h with rfl | rfl
        · exact .asmMem hc
        · exact .asmIntensity hc
      · subst h
        exact .asmMax hc
  · intro h
    cases h with
    | asmCpu h => exact .inl ⟨h, .inl rfl⟩
    | asmLevel l h hl => exact .inl ⟨h, .inr ⟨l, ⟨_, hl, rfl⟩, rfl⟩⟩
    | asmMax h => simp [h, mem_pieces_cons]
    | asmMem h => simp [h, mem_pieces_cons]
    | asmIntensity h => simp [h, mem_pieces_cons]

theorem measured_result (out : Stream) (r : Run) (g : String) (p : Piece) (hp : IsResult p) :
    p ∈ pieces (measured out r g) ↔ ∃ n u, p = .value n g u ∧ Result r .benchmark (.value n "" u) := by
  have ht : ¬∃ x ∈ r.transfers, p = .info "data transfers" x := by
    rintro ⟨x, -, h⟩
    exact info_ne "data transfers" x p hp (by decide) (by decide) h
  simp only [measured, mem_pieces_append, mem_pieces_when, mem_pieces_cons, mem_pieces_nil, mem_pieces_map, ht,
    info_ne "results" g p hp (by decide) (by decide), info_ne "iterations" g p hp (by decide) (by decide),
    info_ne "data transfers" "" p hp (by decide) (by decide), info_ne "assumption" "" p hp (by decide) (by decide), and_false, or_false, false_or,
    decide_eq_true_eq, Bool.not_eq_true']
  constructor
  · rintro (((⟨h, rfl⟩ | rfl | rfl | rfl | rfl | rfl) | ⟨h, rfl⟩) | ⟨h, rfl⟩)
    · exact ⟨_, _, rfl, .measuredMore _ _ h (by simp [moreMeasurements])⟩
    · exact ⟨_, _, rfl, .measured _ _ (by simp [measurements])⟩
    · exact ⟨_, _, rfl, .measured _ _ (by simp [measurements])⟩
    · exact ⟨_, _, rfl, .measured _ _ (by simp [measurements])⟩
    · exact ⟨_, _, rfl, .measured _ _ (by simp [measurements])⟩
    · exact ⟨_, _, rfl, .measured _ _ (by simp [measurements])⟩
    · exact ⟨_, _, rfl, .measuredMore _ _ h (by simp [moreMeasurements])⟩
    · exact ⟨_, _, rfl, .measuredEcm h⟩
  · rintro ⟨n, u, rfl, h⟩
    cases h with
    | measured _ _ h =>
      simp only [measurements, List.mem_cons, List.not_mem_nil, or_false, Prod.mk.injEq] at h
      rcases h with ⟨rfl, rfl⟩ | ⟨rfl, rfl⟩ | ⟨rfl, rfl⟩ | ⟨rfl, rfl⟩ | ⟨rfl, rfl⟩ <;> simp
    | measuredMore _ _ hv h =>
      simp only [moreMeasurements, List.mem_cons, List.not_mem_nil, or_false, Prod.mk.injEq] at h
      rcases h with ⟨rfl, rfl⟩ | ⟨rfl, rfl⟩ <;> simp [hv]
    | measuredEcm h => simp [h]

theorem benchmark_value (r : Run) (p : Piece) (h : Result r .benchmark p) : ∃ n u, p = .value n "" u := by
  cases h with
  | measured n u _ => exact ⟨n, u, rfl⟩
  | measuredMore n u _ _ => exact ⟨n, u, rfl⟩
  | measuredEcm _ => exact ⟨_, _, rfl⟩

theorem benchmark_result (out : Stream) (r : Run) (p : Piece) (hp : IsResult p) : p ∈ pieces (benchmark out r) ↔ Result r .benchmark p := by
  rw [benchmark, measured_result out r "" p hp]
  constructor
  · rintro ⟨n, u, rfl, h⟩
    exact h
  · intro h
    obtain ⟨n, u, rfl⟩ := benchmark_value r p h
    exact ⟨n, u, rfl, h⟩

theorem standalone_result (out : Stream) (r : Run) (p : Piece) (hp : IsResult p) : p ∈ pieces (standalone out r) ↔ Result r .standalone p := by
  simp only [standalone, mem_pieces_flatMap, mem_pieces_append, mem_pieces_cons, mem_pieces_nil, measured_result out r _ p hp, or_false]
  constructor
  · rintro ⟨g, hg, h | ⟨n, u, rfl, h⟩⟩
    · exact absurd h (info_ne "region" g p hp (by decide) (by decide))
    · exact .region g n u hg h
  · intro h
    cases h with
    | region g n u hg h => exact ⟨g, hg, .inr ⟨n, u, rfl, h⟩⟩

theorem lc_result (out : Stream) (r : Run) (p : Piece) (hp : IsResult p) : p ∈ pieces (layerConditions out r) ↔ Result r .lc p := by
  simp only [layerConditions, mem_pieces_flatMap, mem_pieces_append, mem_pieces_when, mem_pieces_cons, mem_pieces_nil, mem_pieces_map,
    info_ne "results" "" p hp (by decide) (by decide), and_false, or_false, false_or]
  constructor
  · rintro ⟨c, hc, rfl | ⟨l, hl, rfl⟩⟩
    · exact .cache c hc
    · exact .condition c l hc hl
  · intro h
    cases h with
    | cache c hc => exact ⟨c, hc, .inl rfl⟩
    | condition c l hc hl => exact ⟨c, hc, .inr ⟨l, hl, rfl⟩⟩

end Verif.Reports
