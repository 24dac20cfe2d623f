import Verif.Model.Osaca
import Verif.Props.Perf

/-!
C122: in-core time with OSACA.
-/

namespace Verif.Osaca

open Verif.Perf

theorem foldl_max (l : List ℚ) (x : ℚ) : (∀ y ∈ x :: l, y ≤ l.foldl max x) ∧ l.foldl max x ∈ x :: l := by
  induction l generalizing x with
  | nil => simp
  | cons a l ih =>
    obtain ⟨h1, h2⟩ := ih (max x a)
    rw [List.foldl_cons]
    have hm := h1 (max x a) (by simp)
    refine ⟨fun y hy => ?_, ?_⟩
    · rcases List.mem_cons.1 hy with rfl | hy
      · exact (le_max_left _ _).trans hm
      · rcases List.mem_cons.1 hy with rfl | hy
        · exact (le_max_right _ _).trans hm
        · exact h1 y (by simp [hy])
    · rcases List.mem_cons.1 h2 with h | h
      · rcases max_choice x a with e | e <;> rw [h, e] <;> simp
      · simp [h]

theorem maximum_ok (l : List ℚ) (h : l ≠ []) : ∃ m, maximum l = .ok m ∧ (∀ y ∈ l, y ≤ m) ∧ m ∈ l := by
  cases l with
  | nil => exact absurd rfl h
  | cons x xs => exact ⟨_, rfl, foldl_max xs x⟩

theorem set_new (d : List (String × ℚ)) (k : String) (v : ℚ) (h : k ∉ d.map (·.1)) : set d k v = d ++ [(k, v)] := by
  induction d with
  | nil => rfl
  | cons p d ih =>
    simp only [List.map_cons, List.mem_cons, not_or] at h
    rw [set, if_neg (Ne.symm h.1), ih h.2, List.cons_append]

theorem fold_set (l d : List (String × ℚ)) (h : ((d ++ l).map (·.1)).Nodup) :
    l.foldl (fun d p => set d p.1 p.2) d = d ++ l := by
  induction l generalizing d with
  | nil => simp
  | cons p l ih =>
    rw [List.foldl_cons, set_new, ih _ (by simpa using h), List.append_assoc, List.singleton_append]
    simp only [List.map_append, List.map_cons] at h
    have := List.nodup_append.1 h
    intro hm
    exact this.2.2 _ hm _ (by simp) rfl

theorem zip_fst (l : List String) (v : List ℚ) : ((l.zip v).map (·.1)).Sublist l := by
  induction l generalizing v with
  | nil => simp
  | cons x l ih =>
    cases v with
    | nil => simp
    | cons y v => simpa using ih v

/-- C122: the throughput is the largest of the occupation of the ports and the latencies of the loop-carried dependencies, or zero if none of them is
positive. -/
theorem C122_throughput (a : Analysis) : ∃ r, analyse a = .ok r ∧ (∀ p ∈ a.pressure, p ≤ r.throughput) ∧ (∀ l ∈ a.latencies, l ≤ r.lcd ∧ l ≤ r.throughput) ∧
    (r.throughput ∈ a.pressure ∨ r.throughput ∈ a.latencies ∨ r.throughput = 0) ∧ (r.lcd ∈ a.latencies ∨ r.lcd = 0) ∧ 0 ≤ r.throughput := by
  obtain ⟨m, h1, h2, h3⟩ := maximum_ok (a.pressure ++ [maxLcd a.latencies]) (by simp)
  obtain ⟨l1, l2⟩ := foldl_max a.latencies 0
  rw [show a.latencies.foldl max 0 = maxLcd a.latencies from rfl] at l1 l2
  refine ⟨_, by simp only [analyse, h1]; rfl, fun p hp => h2 p (by simp [hp]), fun l hl => ⟨l1 l (by simp [hl]), ?_⟩, ?_, ?_, ?_⟩
  · exact (l1 l (by simp [hl])).trans (h2 _ (by simp))
  · rcases List.mem_append.1 h3 with h | h
    · exact Or.inl h
    · have : m = maxLcd a.latencies := by simpa using h
      rcases List.mem_cons.1 l2 with h | h
      · exact Or.inr (Or.inr (this.trans h))
      · refine Or.inr (Or.inl ?_)
        rw [← this] at h
        exact h
  · rcases List.mem_cons.1 l2 with h | h
    · exact Or.inr h
    · exact Or.inl h
  · exact (l1 0 (by simp)).trans (h2 _ (by simp))

/-- C122: every port has its own occupation. -/
theorem C122_ports (a : Analysis) (r : Result) (hn : a.ports.Nodup) (h : analyse a = .ok r) : r.portCycles = a.ports.zip a.pressure := by
  unfold analyse at h
  simp only [bind, Except.bind, pure, Except.pure] at h
  split at h
  · simp at h
  · simp only [Except.ok.injEq] at h
    subst h
    rw [fold_set, List.nil_append]
    simp only [List.nil_append]
    refine List.Nodup.sublist ?_ hn
    exact zip_fst _ _

theorem set_lookup (d : List (String × ℚ)) (k : String) (v : ℚ) (x : String) : (set d k v).lookup x = if x = k then some v else d.lookup x := by
  induction d with
  | nil => by_cases h : x = k <;> simp [set, h]
  | cons p d ih =>
    obtain ⟨a, b⟩ := p
    rw [set]
    by_cases h : a = k
    · subst h
      rw [if_pos rfl]
      by_cases h2 : x = a
      · simp [h2]
      · have h3 : (x == a) = false := by simpa using h2
        simp [List.lookup_cons, h2, h3]
    · rw [if_neg h]
      by_cases h2 : x = a
      · subst h2
        simp [h]
      · have h3 : (x == a) = false := by simpa using h2
        rw [List.lookup_cons, h3, List.lookup_cons, h3]
        exact ih

theorem fold_lookup (l d : List (String × ℚ)) (x : String) :
    (l.foldl (fun d p => set d p.1 p.2) d).lookup x = (l.reverse.lookup x <|> d.lookup x) := by
  induction l generalizing d with
  | nil => simp
  | cons p l ih =>
    obtain ⟨a, b⟩ := p
    rw [List.foldl_cons, ih, set_lookup, List.reverse_cons, List.lookup_append]
    cases l.reverse.lookup x with
    | some y => simp
    | none =>
      by_cases h : x = a
      · simp [h]
      · have h3 : (x == a) = false := by simpa using h
        simp [List.lookup_cons, h, h3]

/-- C122: whatever the names of the ports are, a name has the occupation of the last port with this name, and not the sum of several. -/
theorem C122_ports_last (a : Analysis) (r : Result) (h : analyse a = .ok r) (x : String) :
    r.portCycles.lookup x = (a.ports.zip a.pressure).reverse.lookup x := by
  unfold analyse at h
  simp only [bind, Except.bind, pure, Except.pure] at h
  split at h
  · simp at h
  · simp only [Except.ok.injEq] at h
    subst h
    rw [fold_lookup]
    simp

example : ∃ r, analyse ⟨["0", "1", "0"], [3, 2, 1], []⟩ = .ok r ∧ r.portCycles.lookup "0" = some 1 := by
  obtain ⟨r, h, -⟩ := C122_throughput ⟨["0", "1", "0"], [3, 2, 1], []⟩
  exact ⟨r, h, by rw [C122_ports_last _ _ h]; decide +kernel⟩

/-- C122: the larger of the overlapping and the non-overlapping time of the ECM model is the throughput for a cacheline of work, whichever ports overlap. -/
theorem C122_ecm (a : Analysis) (r : Result) (ol nol : List String) (pinc : Int) (elSize clSize : Nat) (i : Incore) (hn : a.ports.Nodup)
    (h : analyse a = .ok r) (hi : analyzeCPU r.throughput r.portCycles ol nol pinc elSize clSize = some i) :
    max i.tComp i.tRegL1 = i.clThroughput ∧ i.clThroughput * (((pinc.fdiv elSize).natAbs * elSize : Nat) : ℚ) = r.throughput * clSize := by
  obtain ⟨r', h', hp, -, -, -, h0⟩ := C122_throughput a
  rw [h] at h'
  cases h'
  obtain ⟨ratio, hr, hc, hreg, hle, hlt, hpc⟩ := C57_scaled _ _ _ _ _ _ _ _ hi
  have hbs : (((pinc.fdiv elSize).natAbs * elSize : Nat) : ℚ) ≠ 0 := by
    unfold analyzeCPU at hi
    split at hi
    · simp at hi
    · simp only at hi
      split at hi
      · simp at hi
      · rename_i h; exact_mod_cast h
  have hpos : 0 ≤ ratio := by
    have h1 : (0 : ℚ) < (((pinc.fdiv elSize).natAbs * elSize : Nat) : ℚ) := lt_of_le_of_ne (Nat.cast_nonneg _) (Ne.symm hbs)
    have h2 : (0 : ℚ) ≤ clSize := Nat.cast_nonneg _
    rw [← hr] at h2
    exact nonneg_of_mul_nonneg_left h2 h1
  have hmax : ∀ ports m, IsPortMax r.portCycles ports ratio m → m ≤ i.clThroughput := by
    rintro ports m ⟨-, -, rfl | ⟨p, c, hpc, -, rfl⟩⟩
    · rw [hc]; exact mul_nonneg h0 hpos
    · rw [hc]
      rw [C122_ports a r hn h] at hpc
      exact mul_le_mul_of_nonneg_right (hp c (List.of_mem_zip hpc).2) hpos
  refine ⟨?_, by rw [hc, mul_assoc, hr]⟩
  rcases lt_or_ge i.tRegL1 i.clThroughput with hl | hg
  · rw [hlt hl, max_eq_left hl.le]
  · rw [max_eq_right ((hmax _ _ (hle hg)).trans hg)]
    exact le_antisymm (hmax _ _ hreg) hg

/-- Two ports and a dependency of four cycles. -/
def block : Analysis := ⟨["0", "1", "2D"], [3, 2, 5 / 2], [1, 4]⟩

example : (analyse block).map (fun r => (r.throughput, r.lcd, r.portCycles)) = .ok (4, 4, [("0", 3), ("1", 2), ("2D", 5 / 2)]) := by decide +kernel

example : block.ports.Nodup := by decide

example : analyzeCPU 4 [("0", 3), ("1", 2), ("2D", 5 / 2)] ["0", "1"] ["2D"] 32 8 64 = some ⟨[("0", 6), ("1", 4), ("2D", 5)], 8, 8, 5⟩ := by decide +kernel

end Verif.Osaca
