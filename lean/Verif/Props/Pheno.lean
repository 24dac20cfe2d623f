import Verif.Lemmas.Pheno

/-!
C102 to C104: arguments of the stand-alone benchmark.
-/

namespace Verif.Pheno

open Verif.Text Verif.Units Verif.Regex Verif.PhenoArgs Verif.BenchSpec

/-- C102: an argument for a loop adds this loop to each of its regions, behind the loops that are there; other regions stay as they are. -/
theorem C102_loop_partial (l : Loop) (h : l.Plain) (d : List (List Char × List Stored)) :
    ∃ d', addLoop d l.text = .ok d' ∧ ∀ r, d'.lookup r =
      if r ∈ regionsOf l.regions then
        some ((d.lookup r).getD [] ++ List.replicate ((regionsOf l.regions).count r) (.loop l.start l.stop (l.step.getD 1 : Nat) l.var))
      else d.lookup r := by
  obtain ⟨o, ho, hr⟩ := loop_first l h
  have hstep : parseInt ((l.step.map showNat).getD ['1']) = some ((l.step.getD 1 : Nat) : Int) := by
    cases l.step with
    | some b => exact Topology.parseInt_showNat b
    | none => exact Topology.parseInt_showNat 1
  refine ⟨_, by simp only [addLoop, parseLoop, ho, hr, Topology.parseInt_showNat, hstep]; rfl, fun r => ?_⟩
  exact lookup_loops _ _ _ _

def sampleLoop : Loop := ⟨["triad".toList, "copy".toList], 1, some 2, 100, some "N".toList⟩

theorem name_of (c : Char) (w : List Char) (h1 : isDigit c = false) (h2 : WordChar c) (h3 : w.all (fun x => decide (WordChar x)) = true) :
    Name (c :: w) :=
  ⟨c, w, rfl, h1, h2, fun x hx => by simpa using List.all_eq_true.1 h3 x hx⟩

theorem sampleLoop_plain : sampleLoop.Plain where
  names := by
    intro n hn
    simp only [sampleLoop, List.mem_cons, List.not_mem_nil, or_false] at hn
    rcases hn with rfl | rfl <;> exact name_of _ _ (by decide) (by decide) (by decide)
  var := by
    intro v hv
    simp only [sampleLoop, Option.mem_def, Option.some.injEq] at hv
    subst hv
    exact ⟨'N', [], rfl, by decide, by simp⟩

example : sampleLoop.text = "triad,copy:1:2:100:N".toList := by decide +kernel

example : ∃ d', addLoop [("copy".toList, [.loop 0 7 1 none])] "triad,copy:1:2:100:N".toList = .ok d' ∧
    d'.lookup "copy".toList = some [.loop 0 7 1 none, .loop 1 100 2 (some "N".toList)] := by
  obtain ⟨d', h, hl⟩ := C102_loop_partial sampleLoop sampleLoop_plain [("copy".toList, [.loop 0 7 1 none])]
  refine ⟨d', ?_, ?_⟩
  · rw [← h]; congr 1
  · rw [hl]; decide +kernel

/-- The pattern allows for fractions, but for them the argument itself is stored in place of a loop. -/
theorem C102_negation_fraction : addLoop [] "0.5:10".toList = .ok [([], [.text "0.5:10".toList])] := by decide +kernel

/-- What follows the pattern is ignored: the fourth number is lost, and the first three are taken as start, step and end. -/
theorem C102_negation_rest : addLoop [] "0:10:2:3".toList = .ok [([], [.loop 0 2 10 none])] := by decide +kernel

/-- C103: a definition stores the regions, the start and, for a range, the stop and the scale; without a scale a range with a larger stop is
linear and another one logarithmic. An earlier definition for the same name is replaced and the others stay. -/
theorem C103_define_partial (ns : List (List Char)) (a : ℚ) (o : Option (ℚ × Option (List Char))) (s key : List Char) (h : Def ns a o s)
    (d : List (List Char × Option Variable)) :
    ∃ d' v, addDef d key s = .ok d' ∧ d'.lookup key = some (some v) ∧ (∀ k, k ≠ key → d'.lookup k = d.lookup k) ∧
      v.regions = regionsOf ns ∧ v.start = a ∧ v.stop = o.map (·.1) ∧
      (o = none → v.scale = none) ∧ (∀ b t, o = some (b, some t) → v.scale = some t) ∧
      (∀ b, o = some (b, none) → a < b → v.scale = some "lin".toList) ∧
      (∀ b, o = some (b, none) → b ≤ a → v.scale = some "log".toList) := by
  obtain ⟨m, hm, hr, ha, hb, hv⟩ := def_first ns a o s h
  obtain ⟨t, ht, rfl⟩ := Option.map_eq_some_iff.1 ha
  cases o with
  | none =>
    have hs : m.stop = none := by simpa using hb
    have hp : parseDef s = .ok (some ⟨regionsOf ns, floatOf t, none, none⟩) := by simp only [parseDef, hm, ht, hs, hr]
    refine ⟨_, ⟨regionsOf ns, floatOf t, none, none⟩, by simp only [addDef, hp]; rfl, ?_, fun k hk => ?_, rfl, rfl, rfl, fun _ => rfl, ?_, ?_, ?_⟩
    · rw [lookup_upsert, if_pos rfl]; cases d.lookup key <;> rfl
    · rw [lookup_upsert, if_neg hk]
    all_goals simp
  | some q =>
    obtain ⟨b, c⟩ := q
    obtain ⟨u, hu, hub⟩ := Option.map_eq_some_iff.1 hb
    simp only at hub
    subst hub
    have hsc : m.scale = c := by simpa using hv (by simp)
    have hp : parseDef s = .ok (some ⟨regionsOf ns, floatOf t, some (floatOf u),
        some (c.getD (if floatOf t < floatOf u then "lin".toList else "log".toList))⟩) := by simp only [parseDef, hm, ht, hu, hr, hsc]
    refine ⟨_, ⟨regionsOf ns, floatOf t, some (floatOf u), some (c.getD (if floatOf t < floatOf u then "lin".toList else "log".toList))⟩,
      by simp only [addDef, hp]; rfl, ?_, fun k hk => ?_, rfl, rfl, rfl, by simp, ?_, ?_, ?_⟩
    · rw [lookup_upsert, if_pos rfl]; cases d.lookup key <;> rfl
    · rw [lookup_upsert, if_neg hk]
    · intro b' t' he
      simp only [Option.some.injEq, Prod.mk.injEq] at he
      rw [he.2]; rfl
    · intro b' he hlt
      simp only [Option.some.injEq, Prod.mk.injEq] at he
      rw [he.2, he.1, if_pos hlt]; rfl
    · intro b' he hle
      simp only [Option.some.injEq, Prod.mk.injEq] at he
      rw [he.2, he.1, if_neg (not_lt.2 hle)]; rfl

theorem sample_def : Def ["triad".toList] 1000 (some (2, none)) "triad:1e3:2".toList :=
  .range ["triad".toList] 1000 "1e3".toList 2 "2".toList
    (by
      intro n hn
      simp only [List.mem_cons, List.not_mem_nil, or_false] at hn
      subst hn
      exact name_of _ _ (by decide) (by decide) (by decide))
    (.inr ⟨1, "1".toList, 'e', [], 3, .inl ⟨1, by norm_num, by decide⟩, .inl rfl, .inl ⟨.inl rfl, by norm_num⟩, by decide⟩)
    (.inl (.inl ⟨2, by norm_num, by decide⟩))

example : ∃ d' v, addDef [("N".toList, none)] "N".toList "triad:1e3:2".toList = .ok d' ∧ d'.lookup "N".toList = some (some v) ∧
    v.scale = some "log".toList := by
  obtain ⟨d', v, h1, h2, -, -, -, -, -, -, -, h3⟩ := C103_define_partial _ _ _ _ "N".toList sample_def [("N".toList, none)]
  exact ⟨d', v, h1, h2, h3 2 rfl (by norm_num)⟩

/-- Every text is accepted, since all parts of the pattern may be missing; the variable then has neither a value nor regions. -/
theorem C103_negation_any : addDef [] "N".toList "abc".toList = .ok [("N".toList, none)] := by decide +kernel

/-- A number with two points is read as a range. -/
theorem C103_negation_points : parseDef "5.5.5".toList = .ok (some ⟨[[]], 5.5, some 0.5, some "log".toList⟩) := by decide +kernel

/-- A start that begins with a point is read as the name of a region. -/
theorem C103_negation_point : parseDef ".5:10".toList = .ok (some ⟨[".5".toList], 10, none, none⟩) := by decide +kernel

/-- C104: repetitions are stored for each of the regions, in place of an earlier value, and the others stay. -/
theorem C104_repetitions (ns : List (List Char)) (q : List Char) (hn : ∀ n ∈ ns, Name n) (hne : q ≠ []) (hq : ∀ c ∈ q, WordChar c)
    (d : List (List Char × List Char)) :
    ∃ d', addRep d (regionText ns ++ q) = .ok d' ∧ ∀ r, d'.lookup r = if r ∈ regionsOf ns then some q else d.lookup r := by
  obtain ⟨o, ho, hr⟩ := rep_first ns q hn hne hq
  refine ⟨_, by simp only [addRep, ho, hr]; rw [if_neg (by simp [hne])], fun r => lookup_reps _ _ _ _⟩

example : ∃ d', addRep [([], ['1'])] "a,b:marker".toList = .ok d' ∧ d'.lookup [] = some ['1'] ∧ d'.lookup "b".toList = some "marker".toList := by
  obtain ⟨d', h, hl⟩ := C104_repetitions ["a".toList, "b".toList] "marker".toList (by
      intro n hn
      simp only [List.mem_cons, List.not_mem_nil, or_false] at hn
      rcases hn with rfl | rfl <;> exact name_of _ _ (by decide) (by decide) (by decide))
    (by decide) (by decide) [([], ['1'])]
  exact ⟨d', h, by rw [hl]; decide, by rw [hl]; decide⟩

/-- C104: the number of operations is stored for each of the regions if all of them are new and different; the others stay. -/
theorem C104_flops (ns : List (List Char)) (n : Nat) (hn : ∀ n ∈ ns, Name n) (d : List (List Char × Nat))
    (hnew : ∀ r ∈ regionsOf ns, d.lookup r = none) (hdiff : ns.Nodup) :
    ∃ d', addFlops d (regionText ns ++ showNat n) = .ok d' ∧ ∀ r, d'.lookup r = if r ∈ regionsOf ns then some n else d.lookup r := by
  obtain ⟨o, ho, hr⟩ := flops_first ns n hn
  have hnd : (regionsOf ns).Nodup := by
    rw [regionsOf]; split
    · simp
    · exact hdiff
  refine ⟨_, by
    simp only [addFlops, ho, hr, natOf_showNat]
    rw [if_neg (by simp [showNat_ne_nil]), flopsAll_ok n _ _ hnd hnew], fun r => ?_⟩
  rw [lookup_append, lookup_const]
  by_cases h : r ∈ regionsOf ns
  · rw [if_pos h, if_pos h, hnew r h]; rfl
  · rw [if_neg h, if_neg h]; cases d.lookup r <;> rfl

/-- C104: a second number of operations for a region is an error, also within one argument. -/
theorem C104_flops_twice (ns : List (List Char)) (n : Nat) (hn : ∀ n ∈ ns, Name n) (d : List (List Char × Nat))
    (h : (∃ r ∈ regionsOf ns, d.lookup r ≠ none) ∨ ¬ ns.Nodup) : addFlops d (regionText ns ++ showNat n) = .error "Exception" := by
  obtain ⟨o, ho, hr⟩ := flops_first ns n hn
  simp only [addFlops, ho, hr]
  rw [if_neg (by simp [showNat_ne_nil])]
  refine flopsAll_error _ _ _ fun hh => ?_
  rcases h with ⟨r, hm, hne⟩ | hnd
  · exact hne (hh.2 r hm)
  · refine hnd ?_
    have := hh.1
    rw [regionsOf] at this
    split at this
    · rename_i he; subst he; exact List.nodup_nil
    · exact this

example : ∃ d', addFlops [("b".toList, 3)] "12".toList = .ok d' ∧ d'.lookup [] = some 12 ∧ d'.lookup "b".toList = some 3 := by
  obtain ⟨d', h, hl⟩ := C104_flops [] 12 (by simp) [("b".toList, 3)] (by decide) (by simp)
  refine ⟨d', ?_, by rw [hl]; decide, by rw [hl]; decide⟩
  rw [← h]; congr 1

example : addFlops [("b".toList, 3)] "a,b:5".toList = .error "Exception" := by
  have := C104_flops_twice ["a".toList, "b".toList] 5 (by
      intro n hn
      simp only [List.mem_cons, List.not_mem_nil, or_false] at hn
      rcases hn with rfl | rfl <;> exact name_of _ _ (by decide) (by decide) (by decide)) [("b".toList, 3)]
    (.inl ⟨"b".toList, by decide, by decide⟩)
  rw [← this]; congr 1

end Verif.Pheno
