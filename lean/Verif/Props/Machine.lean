import Verif.Model.Machine
import Mathlib.Data.List.Induction
import Mathlib.Tactic.Linarith
import Mathlib.Tactic.FieldSimp
import Mathlib.Tactic.NormNum

/-!
Properties C22, C23, C31, C50 and C54 (machine model).
-/

namespace Verif.Machine

/-! ## C22 -/

/-- Specification: exact read/write ratio of a benchmark kernel with at least one written stream. -/
def benchRatio (b : Bench) : ℚ :=
  ((b.readStreams : ℚ) + b.writeStreams - b.rwStreams) / b.writeStreams

theorem ratio_writing (b : Bench) (h : b.writeStreams ≠ 0) : b.ratio = some (benchRatio b) := by
  simp [Bench.ratio, ratio, h, benchRatio]

theorem ratio_readonly (b : Bench) (h : b.writeStreams = 0) : b.ratio = none := by
  simp [Bench.ratio, ratio, h]

theorem bwFold_finite (τ : ℚ) (init : (String × Bench) × Option ℚ) (hi : init.2 = none)
    (l : List (String × Bench)) :
    ((∀ k ∈ l, k.2.writeStreams = 0) ∧ l.foldl (bwStep (some τ)) init = init) ∨
    ∃ p1 k p2, l = p1 ++ k :: p2 ∧ k.2.writeStreams ≠ 0 ∧
      l.foldl (bwStep (some τ)) init = (k, some (benchRatio k.2)) ∧
      (∀ x ∈ p1, x.2.writeStreams ≠ 0 → |benchRatio k.2 - τ| < |benchRatio x.2 - τ|) ∧
      (∀ x ∈ p2, x.2.writeStreams ≠ 0 → |benchRatio k.2 - τ| ≤ |benchRatio x.2 - τ|) := by
  induction l using List.reverseRecOn with
  | nil => left; simp
  | append_singleton l x ih =>
    rw [List.foldl_append, List.foldl_cons, List.foldl_nil]
    by_cases hx : x.2.writeStreams = 0
    · have hs : ∀ cur : (String × Bench) × Option ℚ, bwStep (some τ) cur x = cur := by
        intro cur
        unfold bwStep
        rw [ratio_readonly _ hx]
        simp [absDiff, FDist.lt]
      rw [hs]
      rcases ih with ⟨h1, h2⟩ | ⟨p1, k, p2, he, hk, hf, h1, h2⟩
      · left
        refine ⟨?_, h2⟩
        intro k hk
        rcases List.mem_append.1 hk with hk | hk
        · exact h1 k hk
        · simp at hk; rw [hk]; exact hx
      · right
        refine ⟨p1, k, p2 ++ [x], by rw [he]; simp, hk, hf, h1, ?_⟩
        intro y hy
        rcases List.mem_append.1 hy with hy | hy
        · exact h2 y hy
        · simp at hy; rw [hy]; intro h; exact absurd hx h
    · rcases ih with ⟨h1, h2⟩ | ⟨p1, k, p2, he, hk, hf, h1, h2⟩
      · right
        refine ⟨l, x, [], rfl, hx, ?_, ?_, by simp⟩
        · rw [h2]
          unfold bwStep
          rw [ratio_writing _ hx, hi]
          simp [absDiff, FDist.lt]
        · intro y hy hy'
          exact absurd (h1 y hy) hy'
      · right
        rw [hf]
        unfold bwStep
        rw [ratio_writing _ hx]
        simp only [absDiff, FDist.lt, decide_eq_true_eq]
        split
        · rename_i hlt
          refine ⟨l, x, [], rfl, hx, rfl, ?_, by simp⟩
          intro y hy hy'
          rw [he, List.mem_append, List.mem_cons] at hy
          rcases hy with hy | rfl | hy
          · exact lt_trans hlt (h1 y hy hy')
          · exact hlt
          · exact lt_of_lt_of_le hlt (h2 y hy hy')
        · rename_i hlt
          refine ⟨p1, k, p2 ++ [x], by rw [he]; simp, hk, rfl, h1, ?_⟩
          intro y hy
          rcases List.mem_append.1 hy with hy | hy
          · exact h2 y hy
          · simp at hy; rw [hy]; intro _; exact not_lt.1 hlt

/-- C22: for a target with written streams the chosen kernel is in the table, writes, has the closest ratio
of all writing kernels, and is alphabetically first among those equally close. -/
theorem C22_closest_ratio (kernels : List (String × Bench)) (info : Bench)
    (hload : kernels.lookup "load" = some info) (reads writes : Int) (hw : writes ≠ 0)
    (hex : ∃ k ∈ kernels, k.2.writeStreams ≠ 0) :
    ∃ k, selectKernel kernels reads writes = some k ∧ k ∈ kernels ∧ k.2.writeStreams ≠ 0 ∧
      ∀ x ∈ kernels, x.2.writeStreams ≠ 0 →
        |benchRatio k.2 - (reads : ℚ) / writes| ≤ |benchRatio x.2 - (reads : ℚ) / writes| ∧
        (|benchRatio k.2 - (reads : ℚ) / writes| = |benchRatio x.2 - (reads : ℚ) / writes| →
          k.1 ≤ x.1) := by
  have hperm := List.perm_insertionSort (fun a b : String × Bench => a.1 ≤ b.1) kernels
  have : Std.Total (fun a b : String × Bench => a.1 ≤ b.1) := ⟨fun a b => le_total a.1 b.1⟩
  have : IsTrans (String × Bench) (fun a b => a.1 ≤ b.1) := ⟨fun a b c => le_trans⟩
  have hsort := List.pairwise_insertionSort (fun a b : String × Bench => a.1 ≤ b.1) kernels
  unfold selectKernel
  rw [hload, show ratio reads writes = some ((reads : ℚ) / writes) by simp [ratio, hw]]
  rcases bwFold_finite ((reads : ℚ) / writes) (("load", info), none) rfl
    (kernels.insertionSort (fun a b => a.1 ≤ b.1)) with ⟨h, _⟩ | ⟨p1, k, p2, he, hk, hf, h1, h2⟩
  · obtain ⟨k, hk, hk'⟩ := hex
    exact absurd (h k (hperm.mem_iff.2 hk)) hk'
  · refine ⟨k, by rw [Option.map_some, hf], ?_, hk, ?_⟩
    · rw [← hperm.mem_iff, he]; simp
    · intro x hx hx'
      rw [← hperm.mem_iff, he, List.mem_append, List.mem_cons] at hx
      rw [he, List.pairwise_append, List.pairwise_cons] at hsort
      rcases hx with hx | rfl | hx
      · have := h1 x hx hx'
        exact ⟨this.le, fun e => absurd e this.ne⟩
      · exact ⟨le_refl _, fun _ => le_refl _⟩
      · exact ⟨h2 x hx hx', fun _ => hsort.2.1.1 x hx⟩

/-- C22: a read-only target selects the load kernel, whatever the table. -/
theorem C22_read_only_target (kernels : List (String × Bench)) (info : Bench)
    (hload : kernels.lookup "load" = some info) (reads : Int) :
    selectKernel kernels reads 0 = some ("load", info) := by
  unfold selectKernel
  rw [hload, show ratio reads 0 = none by simp [ratio], Option.map_some]
  have : ∀ l : List (String × Bench),
      l.foldl (bwStep none) (("load", info), none) = (("load", info), none) := by
    intro l
    induction l with
    | nil => rfl
    | cons x l ih =>
      rw [List.foldl_cons]
      have : bwStep none (("load", info), none) x = (("load", info), none) := by
        unfold bwStep
        cases x.2.ratio <;> simp [absDiff, FDist.lt]
      rw [this, ih]
  rw [this]

/-- C22: if no benchmark kernel writes, the load kernel is used. -/
theorem C22_only_reading_kernels (kernels : List (String × Bench)) (info : Bench)
    (hload : kernels.lookup "load" = some info) (reads writes : Int)
    (hnone : ∀ k ∈ kernels, k.2.writeStreams = 0) :
    selectKernel kernels reads writes = some ("load", info) := by
  by_cases hw : writes = 0
  · subst hw; exact C22_read_only_target kernels info hload reads
  · have hperm := List.perm_insertionSort (fun a b : String × Bench => a.1 ≤ b.1) kernels
    unfold selectKernel
    rw [hload, show ratio reads writes = some ((reads : ℚ) / writes) by simp [ratio, hw]]
    rcases bwFold_finite ((reads : ℚ) / writes) (("load", info), none) rfl
      (kernels.insertionSort (fun a b => a.1 ≤ b.1)) with ⟨_, h⟩ | ⟨p1, k, p2, he, hk, _⟩
    · rw [Option.map_some, h]
    · exact absurd (hnone k (by rw [← hperm.mem_iff, he]; simp)) hk

/-- C22: a table without a load kernel is rejected. -/
theorem C22_missing_load_rejected (kernels : List (String × Bench))
    (hload : kernels.lookup "load" = none) (meas : Option Meas) (level : Nat) (r w : Int) (t : Nat)
    (c : Option Nat) (mc : Nat) : getBandwidth kernels meas level r w t c mc = .error "KeyError" := by
  unfold getBandwidth selectKernel
  rw [hload]
  rfl

theorem foldl_max_spec (x : ℚ) (xs : List ℚ) :
    xs.foldl max x ∈ x :: xs ∧ ∀ y ∈ x :: xs, y ≤ xs.foldl max x := by
  induction xs generalizing x with
  | nil => simp
  | cons z xs ih =>
    rw [List.foldl_cons]
    obtain ⟨h1, h2⟩ := ih (max x z)
    have h3 := h2 (max x z) (by simp)
    constructor
    · rcases List.mem_cons.1 h1 with h | h
      · rw [h]
        rcases max_choice x z with e | e <;> rw [e] <;> simp
      · simp [h]
    · intro y hy
      rcases List.mem_cons.1 hy with rfl | hy
      · exact le_trans (le_max_left _ _) h3
      · rcases List.mem_cons.1 hy with rfl | hy
        · exact le_trans (le_max_right _ _) h3
        · exact h2 y (by simp [hy])

/-- C22: the returned bandwidth is a measured one of the chosen kernel (for the requested core count, or the
maximum over the cores of the group) times the write-allocate correction, which is at least one when no more
bytes are updated than written; for L1 there is no correction. -/
theorem C22_measured_bandwidth (kernels : List (String × Bench)) (meas : Option Meas) (level : Nat)
    (r w : Int) (t : Nat) (cores : Option Nat) (maxCores : Nat) (bw : ℚ) (name : String)
    (h : getBandwidth kernels meas level r w t cores maxCores = .ok (bw, name)) :
    ∃ info m row v f, selectKernel kernels r w = some (name, info) ∧ meas = some m ∧
      m.threadsPerCore = t ∧ m.results.lookup name = some row ∧ bw = v * f ∧
      (∀ c, cores = some c → ∃ i : Nat, m.cores[i]? = some c ∧ (∀ j < i, m.cores[j]? ≠ some c) ∧
        row[i]? = some v) ∧
      (cores = none → v ∈ row.take maxCores ∧ ∀ x ∈ row.take maxCores, x ≤ v) ∧
      (level = 0 → f = 1) ∧
      (level ≠ 0 → f * (info.readBytes + info.writeBytes) =
        info.readBytes + 2 * info.writeBytes - info.rwBytes) ∧
      (0 < info.readBytes + info.writeBytes → info.rwBytes ≤ info.writeBytes → 1 ≤ f) := by
  unfold getBandwidth at h
  split at h
  · simp at h
  rename_i nm info hsel
  split at h
  · simp at h
  rename_i m
  split at h
  swap
  · simp at h
  rename_i htpc
  split at h
  · simp at h
  rename_i v hv
  split at h
  · simp at h
  rename_i f hf
  simp only [Except.ok.injEq, Prod.mk.injEq] at h
  obtain ⟨hbw, rfl⟩ := h
  have hf1 : (level = 0 → f = 1) ∧
      (level ≠ 0 → f * (info.readBytes + info.writeBytes) =
        info.readBytes + 2 * info.writeBytes - info.rwBytes) := by
    unfold factor at hf
    split at hf
    · rename_i h0
      simp only [Except.ok.injEq] at hf
      exact ⟨fun _ => hf.symm, fun h => absurd h0 h⟩
    · rename_i h0
      split at hf
      · simp at hf
      · rename_i h1
        simp only [Except.ok.injEq] at hf
        refine ⟨fun h => absurd h h0, fun _ => ?_⟩
        rw [← hf]
        field_simp
  have hf2 : 0 < info.readBytes + info.writeBytes → info.rwBytes ≤ info.writeBytes → 1 ≤ f := by
    intro hp hle
    by_cases h0 : level = 0
    · rw [hf1.1 h0]
    · have := hf1.2 h0
      by_contra hc
      push Not at hc
      nlinarith
  cases cores with
  | some c =>
    simp only [measured] at hv
    split at hv
    swap
    · simp at hv
    rename_i hc
    split at hv
    · simp at hv
    rename_i row hrow
    split at hv
    · simp at hv
    rename_i v' hv'
    simp only [Except.ok.injEq] at hv
    subst hv
    refine ⟨info, m, row, _, f, hsel, rfl, htpc.symm, hrow, hbw.symm, ?_, by simp, hf1.1, hf1.2, hf2⟩
    intro c' hc'
    simp only [Option.some.injEq] at hc'
    subst hc'
    refine ⟨m.cores.idxOf c, ?_, ?_, hv'⟩
    · rw [List.getElem?_eq_getElem (List.idxOf_lt_length_iff.2 hc), List.getElem_idxOf]
    · intro j hj hjc
      obtain ⟨hjl, hje⟩ := List.getElem?_eq_some_iff.1 hjc
      have := List.not_of_lt_findIdx (p := (· == c)) (xs := m.cores) (i := j) hj
      simp [hje] at this
  | none =>
    simp only [measured] at hv
    split at hv
    · simp at hv
    rename_i row hrow
    split at hv
    · simp at hv
    rename_i x xs hx
    simp only [Except.ok.injEq] at hv
    refine ⟨info, m, row, v, f, hsel, rfl, htpc.symm, hrow, hbw.symm, by simp, ?_, hf1.1, hf1.2, hf2⟩
    intro _
    rw [hx, ← hv]
    exact foldl_max_spec x xs

/-- Benchmark table of the shipped machine files (streams as in the `copy`, `daxpy`, `load`, `triad`, `update`
kernels). -/
def exBench : List (String × Bench) :=
  [("load", ⟨1, 0, 0, 8, 0, 0⟩), ("copy", ⟨1, 1, 0, 8, 8, 0⟩), ("update", ⟨1, 1, 1, 8, 8, 8⟩),
   ("daxpy", ⟨2, 1, 1, 16, 8, 8⟩), ("triad", ⟨3, 1, 0, 24, 8, 0⟩)]

example : exBench.lookup "load" = some ⟨1, 0, 0, 8, 0, 0⟩ := by decide
example : ∃ k ∈ exBench, k.2.writeStreams ≠ 0 := by decide
example : benchRatio ⟨1, 1, 0, 8, 8, 0⟩ = 2 ∧ benchRatio ⟨2, 1, 1, 16, 8, 8⟩ = 2 := by
  norm_num [benchRatio]

/-! ## C23 -/

/-- Specification: sets of a level for a core count. -/
def setsFor (numaCores cores : Nat) (l : Level) : Nat :=
  if 1 < l.coresPerGroup then l.sets / min cores numaCores else l.sets

/-- C23 is false: the simulator built for one core is handed out for eight cores. -/
theorem C23_negation : ¬ ∀ (levels : List Level) (numaCores : Nat) (history : List Nat) (cores : Nat),
    0 < numaCores → 0 < cores → (∀ c ∈ history, 0 < c) →
    (getCachesim levels numaCores (simHistory levels numaCores none history) cores).2 =
      some (levels.map (setsFor numaCores cores)) := by
  intro h
  have := h [⟨64, 1⟩, ⟨512, 1⟩, ⟨16384, 8⟩] 8 [1] 8 (by decide) (by decide) (by decide)
  revert this
  decide

theorem buildSim_eq (levels : List Level) (numaCores cores : Nat) (h : 0 < min cores numaCores) :
    buildSim levels numaCores cores = some (levels.map (setsFor numaCores cores)) := by
  unfold buildSim
  induction levels with
  | nil => rfl
  | cons l ls ih =>
    rw [List.mapM_cons, ih, List.map_cons]
    by_cases hc : 1 < l.coresPerGroup
    · simp [hc, setsFor, show min cores numaCores ≠ 0 by omega]
    · simp [hc, setsFor]

/-- C23 for histories with one core count (what one command line run with fixed `--cores` does): the
simulator is right. Missing: changing core counts on one machine model (`C23_negation`). -/
theorem C23_one_core_count_partial (levels : List Level) (numaCores cores : Nat) (n : Nat)
    (h : 0 < min cores numaCores) :
    (getCachesim levels numaCores (simHistory levels numaCores none (List.replicate n cores)) cores).2 =
      some (levels.map (setsFor numaCores cores)) := by
  have key : ∀ n memo, (memo = none ∨ memo = some (levels.map (setsFor numaCores cores))) →
      (getCachesim levels numaCores (simHistory levels numaCores memo (List.replicate n cores)) cores).2 =
      some (levels.map (setsFor numaCores cores)) := by
    intro n
    induction n with
    | zero =>
      rintro memo (rfl | rfl)
      · simp [simHistory, getCachesim, buildSim_eq levels numaCores cores h]
      · simp [simHistory, getCachesim]
    | succ n ih =>
      rintro memo (rfl | rfl)
      · rw [List.replicate_succ, simHistory]
        apply ih
        right
        simp [getCachesim, buildSim_eq levels numaCores cores h]
      · rw [List.replicate_succ, simHistory]
        apply ih
        right
        simp [getCachesim]
  exact key n none (Or.inl rfl)

/-- C23: in general the simulator matches the first core count that was requested. -/
theorem C23_first_request_partial (levels : List Level) (numaCores first : Nat) (later : List Nat)
    (cores : Nat) (h : 0 < min first numaCores) :
    (getCachesim levels numaCores (simHistory levels numaCores none (first :: later)) cores).2 =
      some (levels.map (setsFor numaCores first)) := by
  rw [simHistory]
  have h0 : (getCachesim levels numaCores none first).1 =
      some (levels.map (setsFor numaCores first)) := by
    simp [getCachesim, buildSim_eq levels numaCores first h]
  rw [h0]
  induction later with
  | nil => simp [simHistory, getCachesim]
  | cons c cs ih => rw [simHistory]; exact ih

/-- C23: exactly when a simulator fits the number of cores: if each level has the same number of sets as for the first request. -/
theorem C23_request_iff (levels : List Level) (numaCores first : Nat) (later : List Nat) (cores : Nat) (h : 0 < min first numaCores) :
    (getCachesim levels numaCores (simHistory levels numaCores none (first :: later)) cores).2 = some (levels.map (setsFor numaCores cores)) ↔
      ∀ l ∈ levels, setsFor numaCores first l = setsFor numaCores cores l := by
  rw [C23_first_request_partial levels numaCores first later cores h, Option.some.injEq, List.map_inj_left]

/-- C23: zero cores with a shared level are rejected. -/
theorem C23_zero_cores_rejected (levels : List Level) (numaCores : Nat)
    (hl : ∃ l ∈ levels, 1 < l.coresPerGroup) : (getCachesim levels numaCores none 0).2 = none := by
  have : buildSim levels numaCores 0 = none := by
    unfold buildSim
    obtain ⟨l, hl, hc⟩ := hl
    induction levels with
    | nil => simp at hl
    | cons x xs ih =>
      rw [List.mapM_cons]
      rcases List.mem_cons.1 hl with rfl | hl
      · simp [hc]
      · rw [ih hl]
        cases h : (if x.coresPerGroup > 1 then
          if min 0 numaCores = 0 then none else some (x.sets / min 0 numaCores) else some x.sets) <;> simp
  simp [getCachesim, this]

example : (getCachesim [⟨64, 1⟩, ⟨16384, 8⟩] 8 none 4).2 = some [64, 4096] := by decide

/-! ## C31 -/

/-- C31: parsing a formatted event gives it back if no part contains a colon. -/
theorem C31_format_parse (e : Event) (he : ':' ∉ e.event) (hr : ':' ∉ e.register)
    (hp : ∀ p ∈ e.parameters, ':' ∉ p) : parseEvent (eventStr e) = .ok e := by
  unfold parseEvent eventStr
  rw [List.splitOn_intercalate]
  · intro l hl
    rcases List.mem_cons.1 hl with rfl | hl
    · exact he
    · rcases List.mem_cons.1 hl with rfl | hl
      · exact hr
      · exact hp l hl
  · simp

/-- C31: formatting a parsed string gives it back. -/
theorem C31_parse_format (s : List Char) (e : Event) (h : parseEvent s = .ok e) : eventStr e = s := by
  unfold parseEvent at h
  split at h
  · rename_i a b c hs
    simp only [Except.ok.injEq] at h
    subst h
    unfold eventStr
    simp only
    rw [← hs, List.intercalate_splitOn]
  · simp at h

/-- C31: exactly the strings without a colon are rejected. -/
theorem C31_rejected_iff (s : List Char) : parseEvent s = .error "AssertionError" ↔ ':' ∉ s := by
  constructor
  · intro h hs
    obtain ⟨a, b, rfl⟩ := List.append_of_mem hs
    unfold parseEvent at h
    rw [List.splitOn_append_cons_self] at h
    cases h1 : a.splitOn ':' with
    | nil => exact List.splitOn_ne_nil _ _ h1
    | cons x xs =>
      cases h2 : b.splitOn ':' with
      | nil => exact List.splitOn_ne_nil _ _ h2
      | cons y ys =>
        rw [h1, h2] at h
        cases xs <;> simp at h
  · intro h
    unfold parseEvent
    rw [List.splitOn_eq_singleton h]

example : parseEvent "L1D:PMC[0-3]:EDGE:T=0x2".toList =
    .ok ⟨"L1D".toList, "PMC[0-3]".toList, ["EDGE".toList, "T=0x2".toList]⟩ := by decide
example : parseEvent "L1D".toList = .error "AssertionError" := by decide

/-! ## C50 -/

/-- Specification: first non-empty string. -/
def firstNonEmpty : List (Option (List Char)) → Option (List Char)
  | [] => none
  | some (c :: cs) :: _ => some (c :: cs)
  | _ :: rest => firstNonEmpty rest

/-- C50: a compiler and flags given in the call win. -/
theorem C50_call_wins (table : List (List Char × List Char)) (found : List Char → Bool)
    (args : Option (Option (List Char) × Option (List Char))) (c f : List Char) (hc : c ≠ [])
    (hf : f ≠ []) : getCompiler table found args (some c) (some f) = .ok (c, f.splitOn ' ') := by
  obtain ⟨c0, cs, rfl⟩ := List.exists_cons_of_ne_nil hc
  obtain ⟨f0, fs, rfl⟩ := List.exists_cons_of_ne_nil hf
  cases args <;> simp [getCompiler, pyOr]

/-- C50: otherwise the command line decides. -/
theorem C50_command_line_next (table : List (List Char × List Char)) (found : List Char → Bool)
    (c f : List Char) :
    getCompiler table found (some (some c, some f)) none none = .ok (c, f.splitOn ' ') := by
  simp [getCompiler, pyOr]

/-- C50: without a compiler from call or command line, the first available compiler of the machine file is
used, with its flags unless flags were given. -/
theorem C50_machine_file_last (table : List (List Char × List Char)) (found : List Char → Bool)
    (args : Option (Option (List Char) × Option (List Char))) (compiler flags : Option (List Char))
    (hc : compiler = none ∨ (compiler = some [] ∧ args ≠ none))
    (ha : ∀ a, args = some a → a.1 = none) (c : List Char) (cf : List Char)
    (pre post : List (List Char × List Char)) (ht : table = pre ++ (c, cf) :: post)
    (hpre : ∀ x ∈ pre, found x.1 = false) (hfound : found c = true)
    (hnd : c ∉ pre.map (·.1)) :
    getCompiler table found args compiler flags = .ok (c, ((match args with
      | some a => match firstNonEmpty [flags, a.2] with
        | some f => f
        | none => match a.2 with
          | some f => f
          | none => cf
      | none => flags.getD cf)).splitOn ' ') := by
  have hlook : table.lookup c = some cf := by
    rw [ht]
    clear ht hpre
    induction pre with
    | nil => simp
    | cons x xs ih =>
      simp at hnd
      have hne : (c == x.1) = false := by simpa using hnd.1
      rw [List.cons_append, List.lookup_cons, hne]
      exact ih (by simpa using hnd.2)
  have hfind : (table.map (·.1)).find? found = some c := by
    rw [ht, List.map_append, List.map_cons, List.find?_append]
    have : (pre.map (·.1)).find? found = none := by
      rw [List.find?_eq_none]
      intro x hx
      rw [List.mem_map] at hx
      obtain ⟨y, hy, rfl⟩ := hx
      simp [hpre y hy]
    rw [this]
    simp [hfound]
  cases args with
  | none =>
    rcases hc with rfl | ⟨_, h⟩
    · simp only [getCompiler, hfind, hlook]
      cases flags <;> simp
    · exact absurd rfl h
  | some a =>
    obtain ⟨ac, af⟩ := a
    have hac : ac = none := ha _ rfl
    subst hac
    have hcn : pyOr compiler none = none := by
      rcases hc with rfl | ⟨rfl, _⟩ <;> rfl
    simp only [getCompiler, hcn, hfind, hlook]
    match flags, af with
    | none, none => simp [pyOr, firstNonEmpty]
    | none, some [] => simp [pyOr, firstNonEmpty]
    | none, some (x :: xs) => simp [pyOr, firstNonEmpty]
    | some [], none => simp [pyOr, firstNonEmpty]
    | some [], some [] => simp [pyOr, firstNonEmpty]
    | some [], some (x :: xs) => simp [pyOr, firstNonEmpty]
    | some (y :: ys), none => simp [pyOr, firstNonEmpty]
    | some (y :: ys), some _ => simp [pyOr, firstNonEmpty]

/-- C50: if no compiler is given and none of the machine file is available, an error is raised. -/
theorem C50_none_available (table : List (List Char × List Char)) (found : List Char → Bool)
    (args : Option (Option (List Char) × Option (List Char))) (flags : Option (List Char))
    (ha : ∀ a, args = some a → a.1 = none) (hf : ∀ x ∈ table, found x.1 = false) :
    getCompiler table found args none flags = .error "RuntimeError" := by
  have hfind : (table.map (·.1)).find? found = none := by
    rw [List.find?_eq_none]
    intro x hx
    rw [List.mem_map] at hx
    obtain ⟨y, hy, rfl⟩ := hx
    simp [hf y hy]
  cases args with
  | none => simp only [getCompiler, hfind]
  | some a =>
    obtain ⟨ac, af⟩ := a
    have hac : ac = none := ha _ rfl
    subst hac
    simp only [getCompiler, pyOr, hfind]

/-- C50: flags of an unlisted compiler are empty. -/
theorem C50_unknown_compiler_no_flags (table : List (List Char × List Char)) (found : List Char → Bool)
    (c : List Char) (h : table.lookup c = none) :
    getCompiler table found none (some c) none = .ok (c, [[]]) := by
  simp [getCompiler, h]

def exTable : List (List Char × List Char) :=
  [("icc".toList, "-O3 -xAVX".toList), ("clang".toList, "-O3".toList), ("gcc".toList, "-O2 -g".toList)]

example : getCompiler exTable (fun c => c == "gcc".toList) (some (none, none)) none none =
    .ok ("gcc".toList, ["-O2".toList, "-g".toList]) := by decide

/-! ## C54 -/

variable {C : Type}

/-- The empty process: no machine models yet. -/
def YamlState.Fresh (s : YamlState C) : Prop := s.objects = [] ∧ ∀ p, s.cache p = none

/-- The full claim of C54: after any history, a newly created model shows the current file content. -/
def C54Claim (C : Type) (supported : C → Bool) : Prop :=
  ∀ (s : YamlState C), s.Fresh → ∀ (ops : List (YamlOp C)) (p : Nat) (c : C),
    (yamlRun supported s ops).files p = some c → supported c = true →
    ((yamlStep supported (yamlRun supported s ops) (.create p)).2).data
      (yamlRun supported s ops).objects.length = some c

/-- C54 is false: a file changed on disk is not read again. -/
theorem C54_negation : ¬ C54Claim Nat (fun _ => true) := by
  intro h
  have := h ⟨fun _ => none, fun _ => none, []⟩ ⟨rfl, fun _ => rfl⟩
    [.write 0 1, .create 0, .write 0 2] 0 2 (by decide) rfl
  revert this
  decide

/-- C54 is false for isolation, too: updating one model changes another one of the same file, and models
created later. -/
theorem C54_negation_shared : ∃ (ops : List (YamlOp Nat)),
    (yamlRun (fun _ => true) ⟨fun _ => none, fun _ => none, []⟩ ops).data 0 = some 7 ∧
    (yamlRun (fun _ => true) ⟨fun _ => none, fun _ => none, []⟩ ops).files 0 = some 1 ∧
    (∀ op ∈ ops, ∀ f, op ≠ .update 0 f) := by
  refine ⟨[.write 0 1, .create 0, .create 0, .update 1 (fun _ => 7)], by decide, by decide, ?_⟩
  intro op hop f
  simp at hop
  rcases hop with rfl | rfl | rfl | rfl <;> simp

/-- Histories that do not create a model from `p`. -/
def NoCreate (p : Nat) (ops : List (YamlOp C)) : Prop := ∀ op ∈ ops, op ≠ .create p

theorem cache_none_of_noCreate (supported : C → Bool) (s : YamlState C) (p : Nat)
    (hc : s.cache p = none) (ho : p ∉ s.objects) (ops : List (YamlOp C)) (hn : NoCreate p ops) :
    (yamlRun supported s ops).cache p = none ∧ p ∉ (yamlRun supported s ops).objects := by
  induction ops using List.reverseRecOn with
  | nil => exact ⟨hc, ho⟩
  | append_singleton ops op ih =>
    obtain ⟨h1, h2⟩ := ih (fun o h => hn o (by simp [h]))
    have hop := hn op (by simp)
    unfold yamlRun at h1 h2 ⊢
    rw [List.foldl_append, List.foldl_cons, List.foldl_nil]
    generalize List.foldl (fun s op => (yamlStep supported s op).2) s ops = t at *
    cases op with
    | write q c => exact ⟨h1, h2⟩
    | create q =>
      have hq : q ≠ p := fun e => hop (by rw [e])
      simp only [yamlStep]
      cases hcq : t.cache q with
      | some c =>
        simp only
        split
        · exact ⟨h1, by simp [h2, hq.symm]⟩
        · exact ⟨h1, h2⟩
      | none =>
        simp only
        cases hfq : t.files q with
        | none => exact ⟨h1, h2⟩
        | some c =>
          simp only
          split
          · refine ⟨?_, by simp [h2, hq.symm]⟩
            simp only [Function.update_of_ne hq.symm]
            exact h1
          · refine ⟨?_, h2⟩
            simp only [Function.update_of_ne hq.symm]
            exact h1
    | update i f =>
      simp only [yamlStep]
      cases hi : t.objects[i]? with
      | none => exact ⟨h1, h2⟩
      | some q =>
        have hq : q ≠ p := fun e => h2 (e ▸ List.mem_of_getElem? hi)
        refine ⟨?_, h2⟩
        simp only [Function.update_of_ne hq.symm]
        exact h1

/-- C54 for the first model of a path in a process: it shows the file content at that time, whatever was done
before with models of other files. Missing: later models of the same path (`C54_negation`). -/
theorem C54_first_model_partial (supported : C → Bool) (s : YamlState C) (hs : s.Fresh)
    (ops : List (YamlOp C)) (p : Nat) (hn : NoCreate p ops) (c : C)
    (hf : (yamlRun supported s ops).files p = some c) (hsup : supported c = true) :
    ((yamlStep supported (yamlRun supported s ops) (.create p)).2).data
      (yamlRun supported s ops).objects.length = some c := by
  obtain ⟨h1, h2⟩ := cache_none_of_noCreate supported s p (hs.2 p) (by simp [hs.1]) ops hn
  simp [yamlStep, h1, hf, hsup, YamlState.data]

/-- C54: updating a model never changes models of other files, nor any file. -/
theorem C54_other_files_untouched_partial (supported : C → Bool) (s : YamlState C) (i j : Nat)
    (f : C → C) (hij : s.objects[i]? ≠ s.objects[j]?) :
    ((yamlStep supported s (.update i f)).2).data j = s.data j ∧
      ((yamlStep supported s (.update i f)).2).files = s.files := by
  simp only [yamlStep]
  cases hi : s.objects[i]? with
  | none => exact ⟨rfl, rfl⟩
  | some p =>
    refine ⟨?_, rfl⟩
    simp only [YamlState.data]
    cases hj : s.objects[j]? with
    | none => rfl
    | some q =>
      have : q ≠ p := by
        rintro rfl
        exact hij (by rw [hi, hj])
      simp [Function.update_of_ne this]

/-- C54: unsupported and missing files are rejected. -/
theorem C54_rejections (supported : C → Bool) (s : YamlState C) (p : Nat) (hc : s.cache p = none) :
    (s.files p = none → (yamlStep supported s (.create p)).1 = .error "FileNotFoundError") ∧
    (∀ c, s.files p = some c → supported c = false →
      (yamlStep supported s (.create p)).1 = .error "ValueError") := by
  constructor
  · intro h; simp [yamlStep, hc, h]
  · intro c h h'; simp [yamlStep, hc, h, h']

theorem cache_kept (supported : C → Bool) (p : Nat) (c : C) (ops : List (YamlOp C)) (hu : ∀ op ∈ ops, ∀ i f, op ≠ .update i f) :
    ∀ s : YamlState C, s.cache p = some c → (yamlRun supported s ops).cache p = some c := by
  induction ops with
  | nil => intro s h; exact h
  | cons op ops ih =>
    intro s h
    have ih := ih (fun o ho => hu o (by simp [ho]))
    simp only [yamlRun, List.foldl_cons]
    refine ih _ ?_
    cases op with
    | write q x => exact h
    | update i f => exact absurd rfl (hu (.update i f) (by simp) i f)
    | create q =>
      simp only [yamlStep]
      cases hq : s.cache q with
      | some x => simp only; split <;> exact h
      | none =>
        have hqp : p ≠ q := by rintro rfl; rw [hq] at h; simp at h
        simp only
        cases s.files q with
        | none => exact h
        | some x => simp only; split <;> simp [Function.update_of_ne hqp, h]

/-- C54 for later models of a path, while no model is updated: they show the current content exactly if it is that of the first one. -/
theorem C54_later_iff (supported : C → Bool) (s : YamlState C) (hs : s.Fresh) (pre post : List (YamlOp C)) (p : Nat) (hn : NoCreate p pre)
    (hu : ∀ op ∈ post, ∀ i f, op ≠ .update i f) (c c' : C) (hf : (yamlRun supported s pre).files p = some c) (hsup : supported c = true)
    (hf' : (yamlRun supported s (pre ++ .create p :: post)).files p = some c') :
    ((yamlStep supported (yamlRun supported s (pre ++ .create p :: post)) (.create p)).2).data
        (yamlRun supported s (pre ++ .create p :: post)).objects.length =
      (yamlRun supported s (pre ++ .create p :: post)).files p ↔ c = c' := by
  obtain ⟨h1, -⟩ := cache_none_of_noCreate supported s p (hs.2 p) (by simp [hs.1]) pre hn
  have hr : yamlRun supported s (pre ++ .create p :: post) =
      yamlRun supported (yamlStep supported (yamlRun supported s pre) (.create p)).2 post := by
    simp [yamlRun]
  have hc : (yamlStep supported (yamlRun supported s pre) (.create p)).2.cache p = some c := by
    simp [yamlStep, h1, hf, hsup]
  have hk := cache_kept supported p c post hu _ hc
  rw [← hr] at hk
  rw [hf']
  simp [yamlStep, hk, hsup, YamlState.data]

/-- The file is changed between two models: the second one does not show it. -/
example : ((yamlStep (fun _ => true) (yamlRun (fun _ => true) ⟨fun _ => none, fun _ => none, []⟩ ([.write 1 5] ++ .create 1 :: [.write 1 6])) (.create 1)).2).data 1 ≠
    (some 6 : Option Nat) := by
  intro h
  have := (C54_later_iff (C := Nat) (fun _ => true) ⟨fun _ => none, fun _ => none, []⟩ ⟨rfl, fun _ => rfl⟩ [.write 1 5] [.write 1 6] 1
    (by intro op hop; simp at hop; subst hop; simp) (by intro op hop; simp at hop; subst hop; simp) 5 6 rfl rfl rfl).mp h
  omega

example : NoCreate 1 [.write 0 1, .create 0, .update 0 (fun n : Nat => n + 1), .write 1 5] := by
  intro op hop
  simp at hop
  rcases hop with rfl | rfl | rfl | rfl <;> simp

end Verif.Machine
