import Verif.Lemmas.Analyzer

/-!
C98 and C99: results of `llvm-mca` and IACA.
-/

namespace Verif.Analyzer

open Verif.Text Verif.Units Verif.Likwid Verif.Tables

/-! ### C98 -/

theorem lookup_pairs (rs : List Resource) (hn : (rs.map (·.key)).Nodup) (r : Resource) (hr : r ∈ rs) :
    (rs.map fun r => (r.key, r.name)).lookup r.key = some r.name := by
  induction rs with
  | nil => cases hr
  | cons x rs ih =>
    simp only [List.map_cons, List.nodup_cons] at hn
    simp only [List.map_cons, List.lookup_cons]
    rcases List.mem_cons.1 hr with rfl | hr
    · simp
    · have : r.key ≠ x.key := fun e => hn.1 (List.mem_map.2 ⟨r, hr, e⟩)
      rw [beq_eq_false_iff_ne.2 this]
      exact ih hn.2 hr

/-- The output: sections, totals and timeline. -/
structure McaOutput (s : List Char) (rs : List Resource) (cols : List (Resource × Option Dec)) (cycles iterations uops : Nat)
    (rows : List (Nat × Nat)) : Prop where
  resources : Resources rs s
  nodup : (rs.map (·.key)).Nodup
  pressure : Pressure cols s
  known : ∀ c ∈ cols, c.1 ∈ rs
  nonempty : cols ≠ []
  totalCycles : HasNumber "Total Cycles:".toList cycles s
  totalIterations : HasNumber "Iterations:".toList iterations s
  positive : iterations ≠ 0
  totalUops : HasNumber "Total uOps:".toList uops s
  timeline : Timeline (splitNl s) rows

/-- C98: cycles of a port are the greatest of all its columns; throughput and operations are those of one iteration; the
latency is the distance from the first dispatch to the last retirement in the first iteration. Missing: names with other
characters (`C98_negation_names`). -/
theorem C98_mca_partial (s : List Char) (rs : List Resource) (cols : List (Resource × Option Dec)) (cycles iterations uops : Nat)
    (rows : List (Nat × Nat)) (h : McaOutput s rs cols cycles iterations uops rows) (hp : ∀ r ∈ rs, r.Plain) :
    ∃ m, mca s = .ok m ∧ m.lcd * iterations = cycles ∧ m.throughput = m.lcd ∧ m.uops * iterations = uops ∧
      (∀ c ∈ cols, ∃ v, m.portCycles.lookup c.1.name = some v ∧ cellValue c.2 ≤ v) ∧
      (∀ n v, m.portCycles.lookup n = some v → ∃ c ∈ cols, c.1.name = n ∧ cellValue c.2 = v) ∧
      ∀ first last, first ∈ rows → last ∈ rows → (∀ x ∈ rows, first.1 ≤ x.1 ∧ x.2 ≤ last.2) →
        m.cpLatency = some ((last.2 : Int) - first.1) := by
  have hrs : rs ≠ [] := by
    rintro rfl
    obtain ⟨c, hc⟩ := List.exists_mem_of_ne_nil _ h.nonempty
    cases h.known c hc
  obtain ⟨x, h1, h2⟩ := section_of rs hp hrs s h.resources
  obtain ⟨a, b, h3, h4, h5⟩ := pressure_of cols h.nonempty s h.pressure
  have hnames : (findRes 0 x).foldl (fun d e => set d e.1 e.2) [] = rs.map fun r => (r.key, r.name) := by
    rw [h2, lookup_foldl_set _ [] (by simpa [List.map_map, Function.comp_def] using h.nodup) (by simp)]
    rfl
  have hzip : (words a).zip (words b) = cols.map fun c => (c.1.key, cellText c.2) := by
    rw [h4, h5]
    induction cols with
    | nil => rfl
    | cons c cols ih => simp [List.zip_map']
  obtain ⟨d, h6, h7⟩ := ports_fold (rs.map fun r => (r.key, r.name)) cols [] []
    (fun c hc => lookup_pairs rs h.nodup c.1 (h.known c hc)) ⟨by simp, by simp⟩
  obtain ⟨acc, h8, h9⟩ := timeline_fold _ _ h.timeline [] (none, 0) ⟨by simp, by simp, by simp, by simp, by simp⟩
  rw [List.nil_append] at h7 h9
  have hit : (iterations : ℚ) ≠ 0 := by exact_mod_cast h.positive
  refine ⟨⟨d, cycles / iterations, cycles / iterations, acc.1.map fun d : Nat => (acc.2 : Int) - d, uops / iterations⟩, ?_, ?_, rfl, ?_, h7.upper,
    h7.attained, ?_⟩
  · simp only [mca, h1, h3, bind, Except.bind, hnames, hzip, h6, number_of _ _ _ h.totalCycles, number_of _ _ _ h.totalIterations,
      number_of _ _ _ h.totalUops, h8, if_neg h.positive]
  · exact div_mul_cancel₀ _ hit
  · exact div_mul_cancel₀ _ hit
  · intro first last hf hl hall
    obtain ⟨st, e1, e2⟩ := h9.start first hf
    obtain ⟨y, hy, e3⟩ := h9.startAt st e1
    obtain ⟨z, hz, e4⟩ := h9.stopAt (fun e => by rw [e] at hf; cases hf)
    have e5 := h9.stop last hl
    have k1 := (hall y hy).1
    have k2 := (hall z hz).2
    have hst : st = first.1 := by omega
    have hac : acc.2 = last.2 := by omega
    show acc.1.map (fun d : Nat => (acc.2 : Int) - d) = _
    rw [e1, hst, hac]
    rfl

/-! A small output. -/

def mcaHead : String := "Iterations:        100\nInstructions:      200\nTotal Cycles:      150\nTotal uOps:        300\n\n"

def mcaRest : String :=
  "Resources:\n[0]   - SBDivider\n[1.0] - SBPort23\n[1.1] - SBPort23\n\n\nResource pressure per iteration:\n[0]    [1.0]  [1.1]  \n -     0.50   1.00   \n\nTimeline view:\n[0,0]     DeER .   mov\n[0,1]     D=eER.   add\n[1,0]     .DeER.   mov\n"

def mcaText : List Char := mcaHead.toList ++ mcaRest.toList

/-- C98: the lines of the timeline are just those that begin with two numbers in brackets. -/
theorem C98_rows (l : List Char) : isRow l = true ↔
    ∃ a b rest : List Char, a ≠ [] ∧ b ≠ [] ∧ (∀ c ∈ a, isDigit c = true) ∧ (∀ c ∈ b, isDigit c = true) ∧
      l = '[' :: (a ++ ',' :: (b ++ ']' :: rest)) := by
  constructor
  · intro h
    unfold isRow at h
    split at h
    · rename_i s
      split at h
      · rename_i r hr
        split at h
        · rename_i t ht
          simp only [ne_eq, Bool.and_eq_true, decide_eq_true_eq] at h
          refine ⟨_, _, t, h.1, h.2, List.all_eq_true.1 List.all_takeWhile, List.all_eq_true.1 List.all_takeWhile, ?_⟩
          rw [← ht, List.takeWhile_append_dropWhile, ← hr, List.takeWhile_append_dropWhile]
        · cases h
      · cases h
    · cases h
  · rintro ⟨a, b, rest, ha, hb, hda, hdb, rfl⟩
    have h1 : ∀ x ∈ (',' :: (b ++ ']' :: rest)).head?, isDigit x = false := by
      intro x hx
      have : ',' = x := by simpa using hx
      subst this; decide
    have h2 : ∀ x ∈ (']' :: rest).head?, isDigit x = false := by
      intro x hx
      have : ']' = x := by simpa using hx
      subst this; decide
    have d1 : (a ++ ',' :: (b ++ ']' :: rest)).dropWhile isDigit = ',' :: (b ++ ']' :: rest) := by
      rw [Topology.dropWhile_all _ _ _ hda, Topology.head_dropWhile _ _ h1]
    have d2 : (b ++ ']' :: rest).dropWhile isDigit = ']' :: rest := by
      rw [Topology.dropWhile_all _ _ _ hdb, Topology.head_dropWhile _ _ h2]
    have t1 : (a ++ ',' :: (b ++ ']' :: rest)).takeWhile isDigit ≠ [] := by
      rw [Topology.takeWhile_all _ _ _ hda]; simp [ha]
    have t2 : (b ++ ']' :: rest).takeWhile isDigit ≠ [] := by
      rw [Topology.takeWhile_all _ _ _ hdb]; simp [hb]
    simp only [isRow, d1, d2]
    simp [t1, t2]

example : isRow "[0,12]   .DeeER.   addq".toList = true := by decide +kernel
example : isRow "[0,]     .DeeER.   addq".toList = false := by decide +kernel

theorem first_of (p s : List Char) (i : Nat) (h : (List.range i).all (fun j => !p.isPrefixOf (s.drop j)) = true)
    (hi : p.isPrefixOf (s.drop i) = true) : First p s i :=
  ⟨List.isPrefixOf_iff_prefix.1 hi, fun j hj hp => by
    have := List.all_eq_true.1 h j (List.mem_range.2 hj)
    simp [List.isPrefixOf_iff_prefix.2 hp] at this⟩

/-- The resources of the sample. -/
def sampleRes : List Resource :=
  [⟨['0'], "SBDivider".toList⟩, ⟨['1', '.', '0'], "SBPort23".toList⟩, ⟨['1', '.', '1'], "SBPort23".toList⟩]

theorem blanks_spaces (n : Nat) : Blanks (List.replicate n ' ') := fun _ hc => .inl (List.mem_replicate.1 hc).2

example : ∀ r ∈ sampleRes, r.Plain := by
  intro r hr
  simp only [sampleRes, List.mem_cons, List.not_mem_nil, or_false] at hr
  rcases hr with rfl | rfl | rfl <;> exact ⟨by decide, by decide, by decide, by decide +kernel⟩

example : Resources sampleRes mcaText :=
  ⟨93, ["[0]   - SBDivider", "[1.0] - SBPort23", "[1.1] - SBPort23"].map (·.toList), mcaText.drop 157,
    first_of _ _ _ (by decide +kernel) (by decide +kernel),
    .cons ⟨_, [' '], [], blanks_spaces 3, by decide, by simp [Blanks], by simp, by simp [Blanks], by decide +kernel⟩
      (.cons ⟨_, [' '], [], blanks_spaces 1, by decide, by simp [Blanks], by simp, by simp [Blanks], by decide +kernel⟩
      (.cons ⟨_, [' '], [], blanks_spaces 1, by decide, by simp [Blanks], by simp, by simp [Blanks], by decide +kernel⟩ .nil)),
    by decide +kernel⟩

example : HasNumber "Total Cycles:".toList 150 mcaText :=
  ⟨46, List.replicate 6 ' ', mcaText.drop 68, blanks_spaces 6, by decide, by decide +kernel,
    first_of _ _ _ (by decide +kernel) (by decide +kernel), by decide +kernel⟩

/-- The columns of the sample. -/
def sampleCols : List (Resource × Option Dec) :=
  [(⟨['0'], "SBDivider".toList⟩, none), (⟨['1', '.', '0'], "SBPort23".toList⟩, some ⟨0, [5, 0], by decide⟩),
   (⟨['1', '.', '1'], "SBPort23".toList⟩, some ⟨1, [0, 0], by decide⟩)]

example : Pressure sampleCols mcaText := by
  refine ⟨158, "[0]    [1.0]  [1.1]  ".toList, " -     0.50   1.00   ".toList, mcaText.drop 235,
    first_of _ _ _ (by decide +kernel) (by decide +kernel), ?_, ?_, by decide +kernel, by decide +kernel, by decide +kernel⟩
  · exact .cons [] _ _ "    [1.0]  [1.1]  ".toList (blanks_spaces 0) (by decide) (by decide) (.cons (List.replicate 4 ' ') _ _ "  [1.1]  ".toList
      (blanks_spaces 4) (by decide) (by decide) (.cons (List.replicate 2 ' ') _ _ "  ".toList (blanks_spaces 2) (by decide) (by decide)
      (.nil _ (blanks_spaces 2)) (.inr rfl)) (.inr rfl)) (.inr rfl)
  · exact .cons [' '] _ _ "     0.50   1.00   ".toList (blanks_spaces 1) (by decide) (by decide) (.cons (List.replicate 5 ' ') _ _ "   1.00   ".toList
      (blanks_spaces 5) (by decide) (by decide) (.cons (List.replicate 3 ' ') _ _ "   ".toList (blanks_spaces 3) (by decide) (by decide)
      (.nil _ (blanks_spaces 3)) (.inr rfl)) (.inr rfl)) (.inr rfl)

example : Timeline ["Timeline view:".toList, "[0,0]     DeER .   mov".toList, "[0,1]     D=eER.   add".toList, "[1,0]     .DeER.   mov".toList]
    [(10, 13), (10, 14)] :=
  .other _ _ _ (by decide) (.row _ _ _ _ _ ⟨0, List.replicate 5 ' ', ['e', 'E'], " .   mov".toList, by decide, by decide, by decide +kernel,
    by decide, by decide⟩ (.row _ _ _ _ _ ⟨1, List.replicate 5 ' ', ['=', 'e', 'E'], ".   add".toList, by decide, by decide, by decide +kernel,
    by decide, by decide⟩ (.other _ _ _ (by decide) .nil)))

example : ((mca mcaText).toOption.map fun m => (m.portCycles, m.lcd, m.cpLatency, m.uops)) =
    some ([("SBDivider".toList, 0), ("SBPort23".toList, 1)], 3 / 2, some 4, 3) := by decide +kernel

/-- C98 is false for names with other characters: two resources are taken for one. -/
theorem C98_negation_names : ∃ s, Resources [⟨['0'], "P_A".toList⟩, ⟨['1'], "P_B".toList⟩] s ∧
    ((mca s).toOption.map fun m => m.portCycles) = some [("P".toList, 3)] := by
  refine ⟨("Iterations:        1\nTotal Cycles:      3\nTotal uOps:        3\n\nResources:\n[0]   - P_A\n[1]   - P_B\n\n" ++
    "Resource pressure per iteration:\n[0]    [1]\n1.00   3.00\n").toList, ⟨64, ["[0]   - P_A", "[1]   - P_B"].map (·.toList),
    "Resource pressure per iteration:\n[0]    [1]\n1.00   3.00\n".toList,
    first_of _ _ _ (by decide +kernel) (by decide +kernel),
    .cons ⟨_, [' '], [], blanks_spaces 3, by decide, by simp [Blanks], by simp, by simp [Blanks], by decide +kernel⟩
      (.cons ⟨_, [' '], [], blanks_spaces 3, by decide, by simp [Blanks], by simp, by simp [Blanks], by decide +kernel⟩ .nil), ?_⟩, ?_⟩
  · decide +kernel
  · decide +kernel

/-! ### C99 -/

/-- C99: throughput, units with their cycles in the order of the table, and operations are those of the output. -/
theorem C99_iaca (s : List Char) (ps : List Port) (hp : ∀ p ∈ ps, p.Plain) (ht : PortTable ps s)
    (hn : ((ps.flatMap Port.units).map (·.1)).Nodup) (t : Dec) (htp : Throughput t s) (u : Nat) (hu : Uops u s) :
    ∃ r, iaca s = .ok r ∧ r.throughput = t.value ∧ r.portCycles = ps.flatMap Port.units ∧ r.uops = u := by
  obtain ⟨hs, cs, h1, h2, h3, h4⟩ := ht
  have hb1 : ∀ c ∈ hs, '|' ∉ c := by
    intro c hc
    obtain ⟨i, hi, rfl⟩ := List.getElem_of_mem hc
    have hi' : i < ps.length := by rw [h1.length_eq]; exact hi
    exact head_bar _ (hp _ (List.getElem_mem hi')) _ (h1.get hi' hi)
  have hb2 : ∀ c ∈ cs, '|' ∉ c := by
    intro c hc
    obtain ⟨i, hi, rfl⟩ := List.getElem_of_mem hc
    have hi' : i < ps.length := by rw [h2.length_eq]; exact hi
    exact cycles_bar _ _ (h2.get hi' hi)
  have c1 := cells_of "  Port  ".toList (by decide) hs s hb1 h3
  have c2 := cells_of " Cycles ".toList (by decide) cs s hb2 h4
  have hlen : (hs.map strip ++ [[]]).length = (cs.map strip ++ [[]]).length := by
    simp [← h1.length_eq, ← h2.length_eq]
  have hports : iacaPorts s = .ok (ps.flatMap Port.units) := by
    rw [iacaPorts]
    have e1 : cells "|  Port  |".toList s = _ := c1
    have e2 : cells "| Cycles |".toList s = _ := c2
    rw [e1, e2]
    simp only [bind, Except.bind, range_zip _ _ _ hlen, cells_fold ps hp hs cs h1 h2 [], List.nil_append]
    rw [lookup_foldl_set _ [] hn (by simp)]
    rfl
  obtain ⟨rest, hf⟩ := htp
  have ht1 : (splitNl s).findSome? matchThroughput = some t.text := by
    refine findSome_firstLine _ _ _ _ hf _ (fun x hx => by rw [matchThroughput, after_none _ _ hx]) ?_
    rw [List.append_assoc, List.append_assoc, matchThroughput, after_append]
    have hidx : ∀ c ∈ t.text, isIdx c = true := by
      intro c hc
      rcases List.mem_append.1 hc with hc | hc
      · simp [isIdx, showNat_digits _ c hc]
      · rcases List.mem_cons.1 hc with rfl | hc
        · decide
        · obtain ⟨x, hx, rfl⟩ := List.mem_map.1 hc
          simp [isIdx, digitChar_isDigit x (t.small x hx)]
    have hhead : ∀ x ∈ (" Cycles".toList ++ rest).head?, isIdx x = false := by
      intro x hx
      have : ' ' = x := by simpa using hx
      subst this
      decide
    simp only [Topology.takeWhile_all _ _ _ hidx, Topology.head_takeWhile _ _ hhead, Topology.dropWhile_all _ _ _ hidx,
      Topology.head_dropWhile _ _ hhead, List.append_nil]
    rw [if_neg]
    simp [text_ne_nil]
  obtain ⟨rest', hr', hf'⟩ := hu
  have hu1 : (splitNl s).findSome? matchUops = some u := by
    refine findSome_firstLine _ _ _ _ hf' _ (fun x hx => by rw [matchUops, after_none _ _ hx]) ?_
    rw [List.append_assoc, matchUops, after_append]
    simp only [Topology.takeWhile_all _ _ _ (showNat_digits u), Topology.head_takeWhile _ _ hr', List.append_nil,
      if_neg (showNat_ne_nil u), natOf_showNat]
  refine ⟨⟨t.value, ps.flatMap Port.units, u⟩, ?_, rfl, rfl, rfl⟩
  simp only [iaca, ht1, float_text, hports, hu1, bind, Except.bind]

/-- An output with three ports, one of which has a divider. -/
def iacaText : List Char :=
  ("Block Throughput: 2.50 Cycles       Throughput Bottleneck: Backend\n|  Port  |   0   -  DV   |   1   |\n" ++
   "| Cycles | 2.5    1.0    | 2.0   |\nTotal Num Of Uops: 7\n").toList

/-- The ports of the sample. -/
def samplePorts : List Port := [.two ['0'] ['D', 'V'] ⟨2, [5], by decide⟩ ⟨1, [0], by decide⟩, .one ['1'] ⟨2, [0], by decide⟩]

example : PortTable samplePorts iacaText := by
  refine ⟨["   0   -  DV   ", "   1   "].map (·.toList), [" 2.5    1.0    ", " 2.0   "].map (·.toList),
    .cons ⟨_, _, _, _, blanks_spaces 3, blanks_spaces 3, blanks_spaces 2, blanks_spaces 3, by decide +kernel⟩
      (.cons ⟨_, _, blanks_spaces 3, blanks_spaces 3, by decide +kernel⟩ .nil),
    .cons ⟨_, List.replicate 4 ' ', _, blanks_spaces 1, by simp [Spaces], by simp, blanks_spaces 4, by decide +kernel⟩
      (.cons ⟨_, _, blanks_spaces 1, blanks_spaces 3, by decide +kernel⟩ .nil), ⟨1, by decide +kernel, by decide +kernel, ?_⟩,
    ⟨2, by decide +kernel, by decide +kernel, ?_⟩⟩
  · intro j hj x hx
    obtain rfl : j = 0 := by omega
    have e : (splitNl iacaText)[0]? = some "Block Throughput: 2.50 Cycles       Throughput Bottleneck: Backend".toList := by decide +kernel
    rw [e, Option.some.injEq] at hx
    subst hx
    decide
  · intro j hj x hx
    have e0 : (splitNl iacaText)[0]? = some "Block Throughput: 2.50 Cycles       Throughput Bottleneck: Backend".toList := by decide +kernel
    have e1 : (splitNl iacaText)[1]? = some "|  Port  |   0   -  DV   |   1   |".toList := by decide +kernel
    obtain rfl | rfl : j = 0 ∨ j = 1 := by omega
    · rw [e0, Option.some.injEq] at hx
      subst hx
      decide
    · rw [e1, Option.some.injEq] at hx
      subst hx
      decide

example : Throughput ⟨2, [5, 0], by decide⟩ iacaText :=
  ⟨"       Throughput Bottleneck: Backend".toList, 0, by decide +kernel, by decide +kernel, fun _ h => absurd h (by omega)⟩

example : ((samplePorts.flatMap Port.units).map (·.1)).Nodup := by decide +kernel

example : (iaca iacaText).toOption.map (·.portCycles) = some [(['0'], 5 / 2), (['0', 'D', 'V'], 1), (['1'], 2)] := by decide +kernel

end Verif.Analyzer
