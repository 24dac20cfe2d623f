import Verif.Lemmas.PerfOut

/-!
C106: reading of the output of `likwid-perfctr`.
-/

namespace Verif.PerfOut

open Verif.Text Verif.Analyzer Verif.PerfSpec

/-- C106: metrics, counters and texts of the output are stored with the value of their last line; of the counts of an event on several
cores it is the first one. Nothing else is stored. Names of events are not those of metrics or texts. -/
theorem C106_output_partial (ds : List Line) (out : List Char) (h : Output ds out)
    (hn : ∀ k c n ns, .event k c n ns ∈ ds → (∀ x, .metric k x ∉ ds) ∧ ∀ t, .info k t ∉ ds) :
    ∃ d, read out = .ok d ∧
      (∀ as bs k x, ds = as ++ .metric k x :: bs → (∀ y, .metric k y ∉ bs) → (∀ t, .info k t ∉ bs) → d.lookup k = some (.num (.fin x))) ∧
      (∀ as bs k t, ds = as ++ .info k t :: bs → (∀ y, .metric k y ∉ bs) → (∀ t, .info k t ∉ bs) → d.lookup k = some (.text t)) ∧
      (∀ as bs k c (n : Nat) ns, ds = as ++ .event k c n ns :: bs → (∀ m ms, .event k c m ms ∉ bs) →
        ∃ e, d.lookup k = some (.counters e) ∧ e.lookup c = some (n : Int)) ∧
      ∀ k, (∀ x, .metric k x ∉ ds) → (∀ t, .info k t ∉ ds) → (∀ c n ns, .event k c n ns ∉ ds) → d.lookup k = none := by
  obtain ⟨ls, hf, hs⟩ := h
  have hplain : ∀ (l : Line) k, Line.plain? l = some k ↔ (∃ x, l = .metric k x) ∨ ∃ t, l = .info k t := by
    intro l k
    cases l <;> simp [Line.plain?]
  have hevent : ∀ (l : Line) k, Line.event? l = some k ↔ ∃ c n ns, l = .event k c n ns := by
    intro l k
    cases l <;> simp [Line.event?]
  have hdis : ∀ l ∈ ds, ∀ m ∈ ds, ∀ k, Line.event? l = some k → Line.plain? m ≠ some k := by
    intro l hl m hm k hk hp
    obtain ⟨c, n, ns, rfl⟩ := (hevent l k).1 hk
    rcases (hplain m k).1 hp with ⟨x, rfl⟩ | ⟨t, rfl⟩
    · exact (hn k c n ns hl).1 x hm
    · exact (hn k c n ns hl).2 t hm
  obtain ⟨d, hd⟩ := fold_ok ds [] (fun _ _ _ _ => trivial) hdis
  refine ⟨d, by rw [read, hs, read_lines ds ls hf, hd], ?_, ?_, ?_, ?_⟩
  · rintro as bs k x rfl h1 h2
    obtain ⟨d1, d2, ha, hb⟩ := fold_split as bs _ [] d hd
    simp only [apply, Except.ok.injEq] at ha
    rw [fold_other bs d2 d hb k fun l hl => ⟨fun hp => ?_, fun he => ?_⟩, ← ha, lookup_set, if_pos rfl]
    · rcases (hplain l k).1 hp with ⟨y, rfl⟩ | ⟨t, rfl⟩
      · exact h1 y hl
      · exact h2 t hl
    · exact hdis l (by simp [hl]) (.metric k x) (by simp) k he rfl
  · rintro as bs k x rfl h1 h2
    obtain ⟨d1, d2, ha, hb⟩ := fold_split as bs _ [] d hd
    simp only [apply, Except.ok.injEq] at ha
    rw [fold_other bs d2 d hb k fun l hl => ⟨fun hp => ?_, fun he => ?_⟩, ← ha, lookup_set, if_pos rfl]
    · rcases (hplain l k).1 hp with ⟨y, rfl⟩ | ⟨t, rfl⟩
      · exact h1 y hl
      · exact h2 t hl
    · exact hdis l (by simp [hl]) (.info k x) (by simp) k he rfl
  · rintro as bs k c n ns rfl h1
    obtain ⟨d1, d2, ha, hb⟩ := fold_split as bs _ [] d hd
    have h2 : ∃ e, d2.lookup k = some (.counters e) ∧ e.lookup c = some (n : Int) := by
      unfold apply at ha
      simp only at ha
      split at ha <;> simp only [Except.ok.injEq, reduceCtorEq] at ha
      all_goals
        subst ha
        refine ⟨_, by rw [lookup_set, if_pos rfl], ?_⟩
      · simp [List.lookup]
      · rw [lookup_set, if_pos rfl]
    obtain ⟨e, he1, he2⟩ := h2
    exact fold_keep bs d2 d hb k c e n he1 he2 (fun l hl => hdis (.event k c n ns) (by simp) l (by simp [hl]) k rfl)
      fun l hl m ms hm => h1 m ms (hm ▸ hl)
  · intro k h1 h2 h3
    rw [fold_other ds [] d hd k fun l hl => ⟨fun hp => ?_, fun he => ?_⟩]
    · rfl
    · rcases (hplain l k).1 hp with ⟨y, rfl⟩ | ⟨t, rfl⟩
      · exact h1 y hl
      · exact h2 t hl
    · obtain ⟨c, n, ns, rfl⟩ := (hevent l k).1 he
      exact h3 c n ns hl

def sampleOut : List Char :=
  "CPU name:,Intel Xeon,\nTABLE,Region loop,Group 1 Raw,MEM,3,\nEvent,Counter,Core 0,\nL1D_M,PMC0:EDGE=0x1,42,\nRuntime (RDTSC) [s],1.5,".toList

def sampleData : List Line :=
  [.info "CPU name:".toList "Intel Xeon".toList, .other, .other, .event "L1D_M".toList "PMC0:EDGE=0x1".toList 42 [],
    .metric "Runtime (RDTSC) [s]".toList (3 / 2)]

instance (c : Char) : Decidable (NoNumber c) := by unfold NoNumber; infer_instance

theorem sample_output : Output sampleData sampleOut := by
  have hc : ∀ s : List Char, (!s.contains ',' && !s.contains '\n') = true → Column s := by
    intro s h
    simpa [Column] using h
  refine ⟨["CPU name:,Intel Xeon,".toList, "TABLE,Region loop,Group 1 Raw,MEM,3,".toList, "Event,Counter,Core 0,".toList,
    "L1D_M,PMC0:EDGE=0x1,42,".toList, "Runtime (RDTSC) [s],1.5,".toList],
    .cons ?_ (.cons ?_ (.cons ?_ (.cons ?_ (.cons ?_ .nil)))), by decide +kernel⟩
  · exact .info "CPU name:".toList "Intel Xeon".toList (hc _ (by decide)) (by decide +kernel) (hc _ (by decide)) ⟨'X', by decide, by decide⟩
  · exact .head "TABLE".toList "Region loop".toList ",Group 1 Raw,MEM,3,".toList (hc _ (by decide)) (by decide) (hc _ (by decide))
      ⟨'R', by decide, by decide⟩ ⟨' ', by decide, .inl rfl⟩ ⟨by decide, .inr ⟨_, rfl⟩⟩
  · exact .head "Event".toList "Counter".toList ",Core 0,".toList (hc _ (by decide)) (by decide) (hc _ (by decide))
      ⟨'C', by decide, by decide⟩ ⟨'o', by decide, by decide⟩ ⟨by decide, .inr ⟨_, rfl⟩⟩
  · refine .event "L1D_M".toList "PMC0:EDGE=0x1".toList 42 [] [','] ⟨by decide, by decide⟩
      ⟨"PMC0".toList, ["EDGE=0x1".toList], by decide, by decide, ⟨'P', by decide, by decide⟩, ?_⟩ ⟨by decide, .inr ⟨[], rfl⟩⟩
    intro o ho
    simp only [List.mem_cons, List.not_mem_nil, or_false] at ho
    subst ho
    exact ⟨"EDGE".toList, "0x1".toList, by decide, by decide, by decide, by decide, by decide⟩
  · exact .metric "Runtime (RDTSC) [s]".toList (3 / 2) "1.5".toList [','] (hc _ (by decide))
      (.inl (.inr ⟨⟨1, [5], by decide⟩, by decide, by norm_num [Tables.Dec.value], by decide⟩)) ⟨by decide, .inr ⟨[], rfl⟩⟩

example : ∃ d e, read sampleOut = .ok d ∧ d.lookup "Runtime (RDTSC) [s]".toList = some (.num (.fin (3 / 2))) ∧
    d.lookup "L1D_M".toList = some (.counters e) ∧ e.lookup "PMC0:EDGE=0x1".toList = some 42 := by
  obtain ⟨d, h, h1, -, h2, -⟩ := C106_output_partial sampleData sampleOut sample_output (by
    intro k c n ns hm
    simp only [sampleData, List.mem_cons, List.not_mem_nil, or_false, reduceCtorEq, false_or, Line.event.injEq] at hm
    obtain ⟨rfl, -⟩ := hm
    constructor <;> simp [sampleData])
  obtain ⟨e, h3, h4⟩ := h2 (sampleData.take 3) (sampleData.drop 4) "L1D_M".toList "PMC0:EDGE=0x1".toList 42 [] rfl (by simp [sampleData])
  exact ⟨d, e, h, h1 (sampleData.take 4) [] _ _ rfl (by simp) (by simp), h3, h4⟩

/-- Of the counts on two cores only the first one is read. -/
theorem C106_negation_cores : read "L1D_M,PMC0,3,5,".toList = .ok [("L1D_M".toList, .counters [("PMC0".toList, 3)])] := by decide +kernel

/-- A counter with an option without value is not read. -/
theorem C106_negation_option : read "L1D_M,PMC0:EDGEDETECT,3,".toList = .ok [] := by decide +kernel

/-- A counter that was not measured is read as zero. -/
theorem C106_negation_missing : read "L1D_M,PMC0,-,".toList = .ok [("L1D_M".toList, .counters [("PMC0".toList, 0)])] := by decide +kernel

end Verif.PerfOut
