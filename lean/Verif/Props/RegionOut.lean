import Verif.Lemmas.RegionOut

/-!
C126: measurements of regions.
-/

namespace Verif.RegionOut

open Verif.Text Verif.Analyzer Verif.PerfSpec Verif.RegionSpec Verif.PerfOut

/-- C126, partial: the metrics and counters of a region are those of the last lines in its tables, texts about the processor are stored without a region,
nothing else is stored, and the regions are those in the output. Names of events are not those of metrics or texts. Missing: counters with options
(`C126_negation_option`) and further cores (`C126_negation_cores`). -/
theorem C126_regions_partial (ds : List RLine) (out : List Char) (seen : List (List Char)) (h : Output ds out)
    (hp : ∀ k c n ns, .line (.event k c n ns) ∈ ds → ':' ∉ c)
    (hn : ∀ k c n ns, .line (.event k c n ns) ∈ ds → (∀ x, .line (.metric k x) ∉ ds) ∧ ∀ t, .line (.info k t) ∉ ds) :
    ∃ s, read seen out = .ok s ∧
      (∀ as bs k x, ds = as ++ .line (.metric k x) :: bs →
        (∀ cs es y, bs = cs ++ .line (.metric k y) :: es → regionAt (as ++ .line (.metric k x) :: cs) ≠ regionAt as) →
        (regionAt as = [] → ∀ t, .line (.info k t) ∉ bs) → (s.get (regionAt as)).lookup k = some (.num (.fin x))) ∧
      (∀ as bs k c (n : Nat) ns, ds = as ++ .line (.event k c n ns) :: bs →
        (∀ cs es m ms, bs = cs ++ .line (.event k c m ms) :: es → regionAt (as ++ .line (.event k c n ns) :: cs) ≠ regionAt as) →
        ∃ e, (s.get (regionAt as)).lookup k = some (.counters e) ∧ e.lookup c = some (n : Int)) ∧
      (∀ as bs k t, ds = as ++ .line (.info k t) :: bs → (∀ t', .line (.info k t') ∉ bs) →
        (∀ cs es y, bs = cs ++ .line (.metric k y) :: es → regionAt (as ++ .line (.info k t) :: cs) ≠ []) → (s.get []).lookup k = some (.text t)) ∧
      (∀ r k, (∀ as bs x, ds = as ++ .line (.metric k x) :: bs → regionAt as ≠ r) →
        (∀ as bs c n ns, ds = as ++ .line (.event k c n ns) :: bs → regionAt as ≠ r) → (r = [] → ∀ t, .line (.info k t) ∉ ds) →
        (s.get r).lookup k = none) ∧
      ∀ r, r ∈ s.seen ↔ r ∈ seen ∨ .region r ∈ ds ∨ (r = [] ∧ seen = [] ∧ ∀ r', .region r' ∉ ds) := by
  obtain ⟨ls, hf, hs⟩ := h
  have hplain : ∀ (l : Line) k, Line.plain? l = some k ↔ (∃ x, l = .metric k x) ∨ ∃ t, l = .info k t := by
    intro l k
    cases l <;> simp [Line.plain?]
  have hevent : ∀ (l : Line) k, Line.event? l = some k ↔ ∃ c n ns, l = .event k c n ns := by
    intro l k
    cases l <;> simp [Line.event?]
  have hmem : ∀ r cur (m : Line) (bs : List RLine), m ∈ share r cur bs → .line m ∈ bs := by
    intro r cur m bs hm
    obtain ⟨cs, es, rfl, -⟩ := (mem_share r cur bs m).1 hm
    simp
  have hdis : ∀ l m, .line l ∈ ds → .line m ∈ ds → ∀ k, Line.event? l = some k → Line.plain? m ≠ some k := by
    intro l m hl hm k hk hpl
    obtain ⟨c, n, ns, rfl⟩ := (hevent l k).1 hk
    rcases (hplain m k).1 hpl with ⟨x, rfl⟩ | ⟨t, rfl⟩
    · exact (hn k c n ns hl).1 x hm
    · exact (hn k c n ns hl).2 t hm
  have hok : ∀ r, ∃ d, (share r [] ds).foldlM apply [] = .ok d := fun r =>
    fold_ok _ [] (fun _ _ _ _ => trivial) fun l hl m hm k => hdis l m (hmem r [] l ds hl) (hmem r [] m ds hm) k
  choose D hD using hok
  obtain ⟨s, h1, h2, h3⟩ := fold_lines ds ls hf { seen := seen } hp D (fun r => hD r)
  -- the tail of a region after a line
  have htail : ∀ as bs (l : Line), ds = as ++ .line l :: bs → ∃ d1 d2, apply d1 l = .ok d2 ∧
      (share (owner (regionAt as) l) (regionAt as) bs).foldlM apply d2 = .ok (D (owner (regionAt as) l)) := by
    rintro as bs l rfl
    have := hD (owner (regionAt as) l)
    rw [share_append, ← regionAt_eq, share, if_pos rfl] at this
    exact fold_split _ _ _ _ _ this
  have hcur : ∀ as cs (l : Line), regionAt (as ++ .line l :: cs) = endCur (regionAt as) cs := by
    intro as cs l
    rw [regionAt_eq, regionAt_eq, endCur_append]
    rfl
  have hget : ∀ s' : State, s'.results = s.results → ∀ r, s'.get r = D r := by
    intro s' hs' r
    rw [← h2 r]
    simp [State.get, hs']
  refine ⟨if s.seen.isEmpty then { s with seen := [[]] } else s, by rw [read, hs, h1], ?_, ?_, ?_, ?_, ?_⟩
  · rintro as bs k x hds hlast hinfo
    rw [hget _ (by split <;> rfl)]
    obtain ⟨d1, d2, ha, hb⟩ := htail as bs _ hds
    simp only [apply, Except.ok.injEq] at ha
    have ho : owner (regionAt as) (.metric k x) = regionAt as := rfl
    rw [ho] at hb
    rw [fold_other _ d2 _ hb k fun l hl => ⟨fun hpl => ?_, fun he => ?_⟩, ← ha, lookup_set, if_pos rfl]
    · obtain ⟨cs, es, hbs, hown⟩ := (mem_share _ _ _ _).1 hl
      rcases (hplain l k).1 hpl with ⟨y, rfl⟩ | ⟨t, rfl⟩
      · exact hlast cs es y hbs (by rw [hcur]; exact hown)
      · exact hinfo hown.symm t (by rw [hbs]; simp)
    · exact hdis l (.metric k x) (by rw [hds]; simp [hmem _ _ _ _ hl]) (by rw [hds]; simp) k he rfl
  · rintro as bs k c n ns hds hlast
    rw [hget _ (by split <;> rfl)]
    obtain ⟨d1, d2, ha, hb⟩ := htail as bs _ hds
    have ho : owner (regionAt as) (.event k c n ns) = regionAt as := rfl
    rw [ho] at hb
    have h2 : ∃ e, d2.lookup k = some (.counters e) ∧ e.lookup c = some (n : Int) := by
      unfold apply at ha
      simp only at ha
      split at ha <;> simp only [Except.ok.injEq, reduceCtorEq] at ha
      all_goals
        subst ha
        refine ⟨_, by rw [lookup_set, if_pos rfl], ?_⟩
      · simp [List.lookup]
      · rw [lookup_set, if_pos rfl]
    obtain ⟨e, he1, he2⟩ := h2
    refine fold_keep _ d2 _ hb k c e n he1 he2 (fun l hl => ?_) fun l hl m ms hm => ?_
    · exact hdis (.event k c n ns) l (by rw [hds]; simp) (by rw [hds]; simp [hmem _ _ _ _ hl]) k rfl
    · subst hm
      obtain ⟨cs, es, hbs, hown⟩ := (mem_share _ _ _ _).1 hl
      exact hlast cs es m ms hbs (by rw [hcur]; exact hown)
  · rintro as bs k t hds hlast hmet
    rw [hget _ (by split <;> rfl)]
    obtain ⟨d1, d2, ha, hb⟩ := htail as bs _ hds
    simp only [apply, Except.ok.injEq] at ha
    have ho : owner (regionAt as) (.info k t) = [] := rfl
    rw [ho] at hb
    rw [fold_other _ d2 _ hb k fun l hl => ⟨fun hpl => ?_, fun he => ?_⟩, ← ha, lookup_set, if_pos rfl]
    · obtain ⟨cs, es, hbs, hown⟩ := (mem_share _ _ _ _).1 hl
      rcases (hplain l k).1 hpl with ⟨y, rfl⟩ | ⟨t', rfl⟩
      · exact hmet cs es y hbs (by rw [hcur]; exact hown)
      · exact hlast t' (by rw [hbs]; simp)
    · exact hdis l (.info k t) (by rw [hds]; simp [hmem _ _ _ _ hl]) (by rw [hds]; simp) k he rfl
  · intro r k hm he hi
    rw [hget _ (by split <;> rfl), fold_other _ [] _ (hD r) k fun l hl => ⟨fun hpl => ?_, fun hev => ?_⟩]
    · rfl
    · obtain ⟨cs, es, hbs, hown⟩ := (mem_share _ _ _ _).1 hl
      rw [← regionAt_eq] at hown
      rcases (hplain l k).1 hpl with ⟨y, rfl⟩ | ⟨t', rfl⟩
      · exact hm cs es y hbs hown
      · exact hi hown.symm t' (by rw [hbs]; simp)
    · obtain ⟨cs, es, hbs, hown⟩ := (mem_share _ _ _ _).1 hl
      rw [← regionAt_eq] at hown
      obtain ⟨c, n, ns, rfl⟩ := (hevent l k).1 hev
      exact he cs es c n ns hbs hown
  · intro r
    have h3' : ∀ r, r ∈ s.seen ↔ r ∈ seen ∨ .region r ∈ ds := h3
    split
    · rename_i hempty
      rw [List.isEmpty_iff] at hempty
      have hno : ∀ r, ¬ (r ∈ seen ∨ .region r ∈ ds) := fun r hr => by
        have := (h3' r).2 hr
        rw [hempty] at this
        cases this
      have hseen : seen = [] := List.eq_nil_iff_forall_not_mem.2 fun r hr => hno r (Or.inl hr)
      simp only [List.mem_cons, List.not_mem_nil, or_false]
      constructor
      · rintro rfl
        exact Or.inr (Or.inr ⟨rfl, hseen, fun r' hr' => hno r' (Or.inr hr')⟩)
      · rintro (hr | hr | ⟨rfl, -⟩)
        · exact absurd (Or.inl hr) (hno r)
        · exact absurd (Or.inr hr) (hno r)
        · rfl
    · rename_i hne
      rw [h3']
      constructor
      · rintro (hr | hr)
        · exact Or.inl hr
        · exact Or.inr (Or.inl hr)
      · rintro (hr | hr | ⟨rfl, hse, hno⟩)
        · exact Or.inl hr
        · exact Or.inr hr
        · exfalso
          apply hne
          rw [List.isEmpty_iff]
          refine List.eq_nil_iff_forall_not_mem.2 fun r' hr' => ?_
          rcases (h3' r').1 hr' with h | h
          · rw [hse] at h
            cases h
          · exact hno r' h

def sampleOut : List Char :=
  "CPU clock:,2.2 GHz,\nTABLE,Region copy,Group 1 Raw,MEM,3,\nL1D_M,PMC0,42,\nTABLE,Region add,Group 1 Raw,MEM,3,\nL1D_M,PMC0,7,\nRuntime (RDTSC) [s],1.5,".toList

def sampleData : List RLine :=
  [.line (.info "CPU clock:".toList "2.2 GHz".toList), .region "copy".toList, .line (.event "L1D_M".toList "PMC0".toList 42 []),
    .region "add".toList, .line (.event "L1D_M".toList "PMC0".toList 7 []), .line (.metric "Runtime (RDTSC) [s]".toList (3 / 2))]

instance (c : Char) : Decidable (NoNumber c) := by unfold NoNumber; infer_instance

theorem sample_output : Output sampleData sampleOut := by
  have hc : ∀ s : List Char, (!s.contains ',' && !s.contains '\n') = true → Column s := by
    intro s h
    simpa [Column] using h
  have hev : EventName "L1D_M".toList := ⟨by decide, by decide⟩
  have hco : Counter "PMC0".toList := ⟨"PMC0".toList, [], by decide, by decide, ⟨'P', by decide, by decide⟩, by simp⟩
  have hre : Rest [','] := ⟨by decide, Or.inr ⟨[], rfl⟩⟩
  refine ⟨["CPU clock:,2.2 GHz,".toList, "TABLE,Region copy,Group 1 Raw,MEM,3,".toList, "L1D_M,PMC0,42,".toList,
    "TABLE,Region add,Group 1 Raw,MEM,3,".toList, "L1D_M,PMC0,7,".toList, "Runtime (RDTSC) [s],1.5,".toList],
    .cons ?_ (.cons ?_ (.cons ?_ (.cons ?_ (.cons ?_ (.cons ?_ .nil))))), by decide +kernel⟩
  · exact .line _ _ (.info _ _ (hc _ (by decide)) (by decide) (hc _ (by decide)) ⟨'G', by decide, by decide⟩) (by decide) (by decide) (by simp)
  · exact .region "copy".toList ",Group 1 Raw,MEM,3,".toList (hc _ (by decide)) ⟨by decide, Or.inr ⟨_, rfl⟩⟩
  · exact .line _ _ (.event _ _ 42 [] _ hev hco hre) (by decide) (by decide) (by simp)
  · exact .region "add".toList ",Group 1 Raw,MEM,3,".toList (hc _ (by decide)) ⟨by decide, Or.inr ⟨_, rfl⟩⟩
  · exact .line _ _ (.event _ _ 7 [] _ hev hco hre) (by decide) (by decide) (by simp)
  · exact .line _ _ (.metric "Runtime (RDTSC) [s]".toList (3 / 2) "1.5".toList [','] (hc _ (by decide))
      (.inl (.inr ⟨⟨1, [5], by decide⟩, by decide, by norm_num [Tables.Dec.value], by decide⟩)) hre) (by decide) (by decide) (by simp)

example : ∀ k c n ns, .line (.event k c n ns) ∈ sampleData →
    ':' ∉ c ∧ (∀ x, .line (.metric k x) ∉ sampleData) ∧ ∀ t, .line (.info k t) ∉ sampleData := by
  intro k c n ns h
  simp only [sampleData, List.mem_cons, RLine.line.injEq, Line.event.injEq, reduceCtorEq, List.not_mem_nil, false_or, or_false] at h
  rcases h with ⟨rfl, rfl, -⟩ | ⟨rfl, rfl, -⟩ <;> refine ⟨by decide, fun x hx => ?_, fun t ht => ?_⟩ <;> simp_all [sampleData]

/-- Both regions count the same event. -/
example : (read [] sampleOut).map (fun s => (s.seen, (s.get "copy".toList).lookup "L1D_M".toList, (s.get "add".toList).lookup "L1D_M".toList)) =
    .ok (["copy".toList, "add".toList], some (.counters [("PMC0".toList, 42)]), some (.counters [("PMC0".toList, 7)])) := by decide +kernel

/-- C126 does not hold: a counter with an option, which the run of a kernel would read (C106), is not stored. -/
theorem C126_negation_option : (read [] "TABLE,Region copy,Group 1 Raw,MEM,3,\nL1D_M,PMC0:EDGEDETECT=0x1,42,".toList).map (fun s => s.get "copy".toList) = .ok [] ∧
    (PerfOut.read "L1D_M,PMC0:EDGEDETECT=0x1,42,".toList) = .ok [("L1D_M".toList, .counters [("PMC0:EDGEDETECT=0x1".toList, 42)])] := by
  constructor <;> decide +kernel

/-- C126 does not hold: the counts of further cores are not stored. -/
theorem C126_negation_cores : (read [] "TABLE,Region copy,Group 1 Raw,MEM,3,\nL1D_M,PMC0,3,5,".toList).map (fun s => s.get "copy".toList) =
    .ok [("L1D_M".toList, .counters [("PMC0".toList, 3)])] := by decide +kernel

end Verif.RegionOut
