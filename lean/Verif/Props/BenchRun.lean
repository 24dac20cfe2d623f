import Verif.Lemmas.BenchRun

/-!
C100: the chosen benchmark kernel. C101: threads of a measurement.
-/

namespace Verif.BenchRun

open Verif.Text Verif.Likwid Verif.BenchSpec

/-- C100: of the listed kernels with the right beginning and without excluded parts, the one with the highest bandwidth is chosen
(of equal ones the last by name); kernels whose run fails are passed over; without any bandwidth there is an error. -/
theorem C100_fastest (pre : List Char) (ex names : List (List Char)) (out : List Char) (run : List Char → Option (List Char))
    (h : Listing names out) (hr : ∀ n ∈ names, Suits pre ex n → (∃ x, Speed (run n) x) ∨ Failure (run n)) :
    ((∃ n ∈ names, Suits pre ex n ∧ ∃ x, Speed (run n) x) →
      ∃ k ∈ names, choose pre ex out run = .ok k ∧ Suits pre ex k ∧ ∃ x, Speed (run k) x ∧
        ∀ n ∈ names, Suits pre ex n → ∀ y, Speed (run n) y → y < x ∨ (y = x ∧ n ≤ k)) ∧
    ((¬ ∃ n ∈ names, Suits pre ex n ∧ ∃ x, Speed (run n) x) → choose pre ex out run = .error "RuntimeError") := by
  have hav := available_spec pre ex names out h
  obtain ⟨rs, e, hrs⟩ := results_spec run (available pre ex out) fun k hk => hr k ((hav k).1 hk).1 ((hav k).1 hk).2
  have hch : choose pre ex out run = best rs := by rw [choose, fastest, e]; rfl
  rw [hch]
  constructor
  · rintro ⟨n, hn, hs, x, hx⟩
    cases rs with
    | nil =>
      have := (hrs _ n).2 ⟨(hav n).2 ⟨hn, hs⟩, x, hx, rfl⟩
      cases this
    | cons r rs =>
      obtain ⟨u, k, hb, hm, hall⟩ := best_spec r rs
      obtain ⟨hk, x, hx, rfl⟩ := (hrs u k).1 hm
      obtain ⟨hk1, hk2⟩ := (hav k).1 hk
      refine ⟨k, hk1, hb, hk2, x, hx, fun n hn hs y hy => ?_⟩
      have := hall _ ((hrs _ n).2 ⟨(hav n).2 ⟨hn, hs⟩, y, hy, rfl⟩)
      have hf : ∀ z : ℚ, Units.Unit.base ⟨z, ['M'], "B/s".toList⟩ = z * 10 ^ 6 := fun z => rfl
      simp only [Below, hf] at this
      rcases this with h | ⟨h, h'⟩
      · exact .inl (lt_of_mul_lt_mul_right h (by norm_num))
      · exact .inr ⟨mul_right_cancel₀ (by norm_num) h, h'⟩
  · intro hno
    cases rs with
    | nil => rfl
    | cons r rs =>
      obtain ⟨hk, x, hx, -⟩ := (hrs r.1 r.2).1 (by simp)
      exact absurd ⟨r.2, ((hav _).1 hk).1, ((hav _).1 hk).2, x, hx⟩ hno

/-- The bandwidth that is stored is the printed one, in MB/s. -/
theorem C100_bandwidth (run : Option (List Char)) (x : ℚ) (h : Speed run x) :
    ∃ u, measure run = .ok u ∧ u.base = x * 10 ^ 6 ∧ u.unit = "B/s".toList :=
  ⟨_, measure_speed run x h, rfl, rfl⟩

/-- A list of kernels. -/
def sampleList : List Char := "load - Double-precision load\nload_avx - Load with AVX\nload_mem - Load\ncopy\n".toList

/-- Their runs. -/
def sampleRun (k : List Char) : Option (List Char) :=
  if k = "load".toList then some "Cycles:\t12\nMByte/s:\t\t900.5\n".toList
  else if k = "load_mem".toList then some "MByte/s: 2000".toList
  else none

theorem sample_listing : Listing ["load".toList, "load_avx".toList, "load_mem".toList, "copy".toList] sampleList := by
  refine ⟨[], ["load - Double-precision load".toList, "load_avx - Load with AVX".toList, "load_mem - Load".toList, "copy".toList],
    ['\n'], by simp, by decide, by simp, ?_, by decide⟩
  refine .cons ⟨by decide, by decide, .inr ⟨"Double-precision load".toList, by decide, by decide, by decide, by decide⟩⟩ (.cons
    ⟨by decide, by decide, .inr ⟨"Load with AVX".toList, by decide, by decide, by decide, by decide⟩⟩ (.cons
    ⟨by decide, by decide, .inr ⟨"Load".toList, by decide, by decide, by decide, by decide⟩⟩ (.cons
    ⟨by decide, by decide, .inl rfl⟩ .nil)))

theorem sample_speed : Speed (sampleRun "load".toList) (9005 / 10) :=
  ⟨_, rfl, "Cycles:\t12\n".toList, "\t\t".toList, "900.5".toList, [], ['\n'], by unfold Blanks; decide, by decide, by simp [Blanks],
    .inr ⟨⟨900, [5], by decide⟩, by decide, by norm_num [Tables.Dec.value, Nat.ofDigits], by decide +kernel⟩, by decide, .inr rfl,
    .inr (by decide), by decide⟩

theorem sample_suits : Suits "load".toList ["_mem".toList] "load".toList := ⟨by decide, by decide⟩

/-- The hypotheses hold for the sample, with a run that is excluded, a failing one and a successful one. -/
example : ∃ k, choose "load".toList ["_mem".toList] sampleList sampleRun = .ok k := by
  obtain ⟨k, -, h, -⟩ := (C100_fastest "load".toList ["_mem".toList] _ sampleList sampleRun sample_listing (by
    intro n hn hs
    simp only [List.mem_cons, List.not_mem_nil, or_false] at hn
    rcases hn with rfl | rfl | rfl | rfl
    · exact .inl ⟨_, sample_speed⟩
    · exact .inr (.inl (by decide))
    · exact absurd hs.2 (by decide)
    · exact absurd hs.1 (by decide))).1 ⟨"load".toList, by simp, sample_suits, _, sample_speed⟩
  exact ⟨k, h⟩

example : choose "load".toList ["_mem".toList] sampleList sampleRun = .ok "load".toList := by decide +kernel

/-- C101: if the number of threads per core divides that of the hardware threads per core, there is one work group with the size for
each socket, and it has this number of threads on each of the cores and none elsewhere. -/
theorem C101_threads_partial (kernel : List Char) (size t m cores sockets : Nat) (ht : 0 < t) (hm : 0 < m) (hd : t ∣ m) :
    ∃ gs : List Group, command kernel size t m cores sockets =
        .ok (["likwid-bench".toList, "-t".toList, kernel] ++ gs.flatMap fun g => ["-W".toList, g.text]) ∧
      gs.map (·.socket) = List.range sockets ∧ (∀ g ∈ gs, g.size = size) ∧
      ∀ g ∈ gs, ∀ j, g.onCore m j = if j < cores then t else 0 := by
  refine ⟨(List.range sockets).map fun s => ⟨s, size, t * cores, 1, m / t⟩, ?_, ?_, ?_, ?_⟩
  · rw [command, if_neg (by omega), List.flatMap_map]
    congr 3
    funext s
    simp only [group, Group.text]
    rw [show showNat 1 = ['1'] by decide, show "kB:".toList = ['k', 'B', ':'] from rfl, show ":1:".toList = [':', '1', ':'] from rfl]
    simp
  · rw [List.map_map]; exact List.map_id _
  · intro g hg
    obtain ⟨s, -, rfl⟩ := List.mem_map.1 hg
    rfl
  · intro g hg j
    obtain ⟨s, -, rfl⟩ := List.mem_map.1 hg
    obtain ⟨q, rfl⟩ := hd
    have hq : 0 < q := by
      rcases Nat.eq_zero_or_pos q with rfl | h
      · simp at hm
      · exact h
    rw [← count_div t cores j ht, Group.onCore, List.countP_map]
    congr 1
    funext k
    simp only [Function.comp, Group.place, Nat.div_one, Nat.mod_one, Nat.add_zero]
    rw [Nat.mul_div_cancel_left q ht, Nat.mul_comm t q, Nat.mul_comm k q, Nat.mul_div_mul_left _ _ hq]

example : ∃ gs : List Group, command "load".toList 100 2 4 3 1 =
    .ok (["likwid-bench".toList, "-t".toList, "load".toList] ++ gs.flatMap fun g => ["-W".toList, g.text]) := by
  obtain ⟨gs, h, -⟩ := C101_threads_partial "load".toList 100 2 4 3 1 (by decide) (by decide) ⟨2, rfl⟩
  exact ⟨gs, h⟩

example : command "load".toList 100 2 4 3 1 =
    .ok ["likwid-bench".toList, "-t".toList, "load".toList, "-W".toList, "S0:100kB:6:1:2".toList] := by decide +kernel

/-- C101: the exact condition. Every core gets its threads if and only if there is only one core or the number of threads divides the
number of hardware threads of a core. -/
theorem C101_threads_iff (kernel : List Char) (size t m cores sockets : Nat) (ht : 0 < t) (hm : 0 < m) (hs : 0 < sockets) :
    ∃ gs : List Group, command kernel size t m cores sockets =
        .ok (["likwid-bench".toList, "-t".toList, kernel] ++ gs.flatMap fun g => ["-W".toList, g.text]) ∧
      gs.map (·.socket) = List.range sockets ∧ (∀ g ∈ gs, g.size = size) ∧
      ((∀ g ∈ gs, ∀ j, g.onCore m j = if j < cores then t else 0) ↔ cores ≤ 1 ∨ t ∣ m) := by
  refine ⟨(List.range sockets).map fun s => ⟨s, size, t * cores, 1, m / t⟩, ?_, ?_, ?_, ?_⟩
  · rw [command, if_neg (by omega), List.flatMap_map]
    congr 3
    funext s
    simp only [group, Group.text]
    rw [show showNat 1 = ['1'] by decide, show "kB:".toList = ['k', 'B', ':'] from rfl, show ":1:".toList = [':', '1', ':'] from rfl]
    simp
  · rw [List.map_map]; exact List.map_id _
  · intro g hg
    obtain ⟨s, -, rfl⟩ := List.mem_map.1 hg
    rfl
  · have hplace : ∀ s j, (Group.onCore ⟨s, size, t * cores, 1, m / t⟩ m j) =
        (List.range (t * cores)).countP fun k => decide (k * (m / t) / m = j) := by
      intro s j
      rw [Group.onCore, List.countP_map]
      congr 1
      funext k
      simp [Group.place, Nat.mod_one]
    constructor
    · intro h
      by_contra hc
      push Not at hc
      obtain ⟨hc, hd⟩ := hc
      have h0 := h ⟨0, size, t * cores, 1, m / t⟩ (List.mem_map.2 ⟨0, by simpa using hs, rfl⟩) 0
      rw [hplace, if_pos (by omega)] at h0
      have hlt : t * (m / t) < m := by
        have h1 := Nat.div_add_mod m t
        have h2 : m % t ≠ 0 := fun h2 => hd (Nat.dvd_of_mod_eq_zero h2)
        omega
      have hle : t + 1 ≤ t * cores := by nlinarith
      have hsub : List.Sublist (List.range (t + 1)) (List.range (t * cores)) := List.range_sublist.2 hle
      have hcount := hsub.countP_le (p := fun k => decide (k * (m / t) / m = 0))
      rw [h0, List.countP_eq_length.2, List.length_range] at hcount
      · omega
      · intro k hk
        rw [List.mem_range] at hk
        simp only [decide_eq_true_eq]
        refine Nat.div_eq_of_lt (lt_of_le_of_lt (Nat.mul_le_mul_right _ (by omega : k ≤ t)) hlt)
    · rintro (h1 | hd) g hg j
      · obtain ⟨s, -, rfl⟩ := List.mem_map.1 hg
        rw [hplace]
        have hz : ∀ k ∈ List.range (t * cores), k * (m / t) / m = 0 := by
          intro k hk
          rw [List.mem_range] at hk
          have : k < t := lt_of_lt_of_le hk (by nlinarith)
          refine Nat.div_eq_of_lt ?_
          rcases Nat.eq_zero_or_pos (m / t) with h0 | h0
          · rw [h0, mul_zero]; exact hm
          · calc k * (m / t) < t * (m / t) := Nat.mul_lt_mul_of_pos_right this h0
              _ ≤ m := Nat.mul_div_le m t
        rcases Nat.eq_zero_or_pos j with rfl | hj
        · rw [List.countP_eq_length.2 (by simpa using hz), List.length_range]
          rcases Nat.le_one_iff_eq_zero_or_eq_one.1 h1 with rfl | rfl <;> simp
        · rw [if_neg (by omega), List.countP_eq_zero]
          intro k hk
          rw [hz k hk]
          simp; omega
      · obtain ⟨s, -, rfl⟩ := List.mem_map.1 hg
        obtain ⟨q, rfl⟩ := hd
        have hq : 0 < q := by
          rcases Nat.eq_zero_or_pos q with rfl | h
          · simp at hm
          · exact h
        rw [← count_div t cores j ht, hplace]
        congr 1
        funext k
        rw [Nat.mul_div_cancel_left q ht, Nat.mul_comm t q, Nat.mul_comm k q, Nat.mul_div_mul_left _ _ hq]

/-- Four hardware threads per core, three of them are used. -/
example : ∃ gs : List Group, (command "load".toList 100 3 4 2 1 =
      .ok (["likwid-bench".toList, "-t".toList, "load".toList] ++ gs.flatMap fun g => ["-W".toList, g.text])) ∧
    ¬ ∀ g ∈ gs, ∀ j, g.onCore 4 j = if j < 2 then 3 else 0 := by
  obtain ⟨gs, h, -, -, hi⟩ := C101_threads_iff "load".toList 100 3 4 2 1 (by decide) (by decide) (by decide)
  exact ⟨gs, h, by rw [hi]; decide⟩

/-- With three of four hardware threads per core, the first of two cores gets four threads and the second one two. -/
theorem C101_negation_three : ∃ g : Group, command "load".toList 100 3 4 2 1 =
      .ok (["likwid-bench".toList, "-t".toList, "load".toList] ++ [g].flatMap fun g => ["-W".toList, g.text]) ∧
    g.onCore 4 0 = 4 ∧ g.onCore 4 1 = 2 :=
  ⟨⟨0, 100, 6, 1, 1⟩, by decide +kernel, by decide, by decide⟩

end Verif.BenchRun
