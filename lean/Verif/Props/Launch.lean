import Verif.Lemmas.Launch
import Verif.Props.Bench

/-!
C155: benchmarks run on the requested number of physical cores.
-/

namespace Verif.Launch

open Verif.Text Verif.Bench

abbrev E := Env (List Char) (List Char)

/-- The claim of C155 for a machine with several sockets of one kind: benchmarks of as many cores as there are, and of at least one, run with one
thread on each of as many physical cores. -/
def C155Claim (s : Socket) (sockets : Nat) : Prop :=
  ∀ (group : List Char) (cores : Int) (markers : Bool) (w : List Char) (ws : List (List Char)), w.head? ≠ some '-' → 1 ≤ cores →
    cores ≤ sockets * s.cores → ∃ l, launch s (command group cores markers (w :: ws)) none = some l ∧ l.threads = some cores.toNat ∧
      l.processors.Nodup ∧ l.processors.length = cores.toNat ∧ l.group = group ∧ l.markers = markers ∧ l.program = w :: ws

/-- C155: whatever happens, the environment stays as it was; without `likwid-perfctr` nothing is run. -/
theorem C155_environment (found : Bool) (exec : List (List Char) → E → Except Nat (List Char)) (group : List Char) (cores : Int) (markers : Bool)
    (cmd : List (List Char)) (e : E) : (∀ k, (perfctr found exec group cores markers cmd e).1 k = e k) ∧
      (found = false → (perfctr found exec group cores markers cmd e).2 = .error 1) := by
  cases found
  · simp [perfctr]
  · refine ⟨fun k => ?_, by simp⟩
    obtain ⟨e1, he, h3, h4⟩ := enter_none (fun _ _ => true) variableName e
    simp only [perfctr, if_true, he]
    by_cases hk : k = variableName
    · rw [hk]; exact leaveFix_self _ _ _
    · rw [leaveFix_other _ _ _ _ hk, h4 k hk]

/-- C155, partial: up to the number of cores of a socket, the program runs with one thread on each of as many physical cores, and the events and the
regions are the requested ones, whatever `OMP_NUM_THREADS` was. Missing: more cores than a socket has (`C155_negation`). -/
theorem C155_cores_partial (s : Socket) (hs : 1 ≤ s.smt) (likwid : Launch → Except Nat (List Char))
    (exec : List (List Char) → E → Except Nat (List Char))
    (hexec : ∀ words e l, launch s words (e "OMP_NUM_THREADS".toList) = some l → exec words e = likwid l)
    (group : List Char) (cores : Int) (markers : Bool) (w : List Char) (ws : List (List Char)) (hw : w.head? ≠ some '-') (h1 : 1 ≤ cores)
    (h2 : cores ≤ s.cores) (e : E) :
    (∀ k, (perfctr true exec group cores markers (w :: ws) e).1 k = e k) ∧
    ∃ l : Launch, l.threads = some cores.toNat ∧ l.processors.Nodup ∧ l.processors.length = cores.toNat ∧ (∀ p ∈ l.processors, p < s.cores) ∧
      l.group = group ∧ l.markers = markers ∧ l.program = w :: ws ∧
      (perfctr true exec group cores markers (w :: ws) e).2 = match likwid l with
        | .error _ => .error 1
        | .ok out => .ok (splitNl out) := by
  have hm : max 1 cores.toNat = cores.toNat := by omega
  have hle : cores.toNat ≤ s.cores := by omega
  have hle2 : cores.toNat ≤ s.cores * s.smt := hle.trans (Nat.le_mul_of_pos_right _ hs)
  obtain ⟨e1, he, h3, h4⟩ := enter_none (fun _ _ => true) variableName e
  have hl := launch_command s group cores markers w ws hw
  rw [hm, if_pos hle2] at hl
  have hmap : (List.range cores.toNat).map (· % s.cores) = List.range cores.toNat := by
    conv_rhs => rw [← List.map_id (List.range cores.toNat)]
    refine List.map_congr_left fun p hp => ?_
    exact Nat.mod_eq_of_lt (lt_of_lt_of_le (List.mem_range.1 hp) hle)
  rw [hmap] at hl
  have h3' : e1 "OMP_NUM_THREADS".toList = none := h3
  refine ⟨fun k => ?_, ⟨group, List.range cores.toNat, markers, w :: ws, some cores.toNat⟩, rfl, List.nodup_range, List.length_range, ?_, rfl, rfl, rfl, ?_⟩
  · exact (C155_environment true exec group cores markers (w :: ws) e).1 k
  · intro p hp
    exact lt_of_lt_of_le (List.mem_range.1 hp) hle
  · simp only [perfctr, if_true, he]
    rw [hexec _ _ _ (by rw [h3']; exact hl)]
    cases likwid ⟨group, List.range cores.toNat, markers, w :: ws, some cores.toNat⟩ <;> rfl

/-- C155, exactly: more than one core is launched on distinct physical cores if and only if the first socket has them. -/
theorem C155_iff (s : Socket) (group : List Char) (cores : Int) (markers : Bool) (w : List Char) (ws : List (List Char)) (hw : w.head? ≠ some '-')
    (h1 : 1 ≤ cores) (hs : 1 ≤ s.smt) :
    (∃ l, launch s (command group cores markers (w :: ws)) none = some l ∧ l.processors.Nodup) ↔ cores ≤ s.cores := by
  have hm : max 1 cores.toNat = cores.toNat := by omega
  rw [launch_command s group cores markers w ws hw, hm]
  constructor
  · rintro ⟨l, hl, hn⟩
    split at hl
    · rename_i hc
      simp only [Option.some.injEq] at hl
      subst hl
      by_contra hgt
      have hpos : 0 < s.cores := by
        by_contra h0
        rw [show s.cores = 0 by omega] at hc
        omega
      have hinj := List.inj_on_of_nodup_map hn (List.mem_range.2 (show 0 < cores.toNat by omega)) (List.mem_range.2 (show s.cores < cores.toNat by omega))
        (by simp)
      omega
    · cases hl
  · intro h
    have hle : cores.toNat ≤ s.cores := by omega
    rw [if_pos (hle.trans (Nat.le_mul_of_pos_right _ hs))]
    refine ⟨_, rfl, ?_⟩
    refine List.Nodup.map_on ?_ List.nodup_range
    intro a ha b hb hab
    rw [Nat.mod_eq_of_lt (lt_of_lt_of_le (List.mem_range.1 ha) hle), Nat.mod_eq_of_lt (lt_of_lt_of_le (List.mem_range.1 hb) hle)] at hab
    exact hab

example : variableName = "OMP_NUM_THREADS".toList := rfl

/-- Four of eight cores with two hardware threads each. -/
example : launch ⟨8, 2⟩ (command "MEM".toList 4 true ["./bench".toList, "10".toList]) none =
    some ⟨"MEM".toList, [0, 1, 2, 3], true, ["./bench".toList, "10".toList], some 4⟩ := by decide +kernel

/-- Without the removal of `OMP_NUM_THREADS` the number of threads would be another one. -/
example : (launch ⟨8, 2⟩ (command "MEM".toList 4 true ["./bench".toList, "10".toList]) (some ['2'])).map (·.threads) = some (some 2) := by
  decide +kernel

/-- C155 does not hold for machines with several sockets: the cores are those of the first one. With one hardware thread each, six cores of two sockets
with four are rejected; with two, six threads share four cores. -/
theorem C155_negation : ¬ C155Claim ⟨4, 1⟩ 2 ∧ ¬ C155Claim ⟨4, 2⟩ 2 := by
  refine ⟨fun h => ?_, fun h => ?_⟩
  · obtain ⟨l, hl, -, hn, -⟩ := h "MEM".toList 6 true "./bench".toList [] (by decide) (by decide) (by decide)
    exact absurd ((C155_iff ⟨4, 1⟩ "MEM".toList 6 true "./bench".toList [] (by decide) (by decide) (by decide)).1 ⟨l, hl, hn⟩) (by decide)
  · obtain ⟨l, hl, -, hn, -⟩ := h "MEM".toList 6 true "./bench".toList [] (by decide) (by decide) (by decide)
    exact absurd ((C155_iff ⟨4, 2⟩ "MEM".toList 6 true "./bench".toList [] (by decide) (by decide) (by decide)).1 ⟨l, hl, hn⟩) (by decide)

/-- C155 holds for machines with one socket. -/
theorem C155_socket_partial (s : Socket) (hs : 1 ≤ s.smt) : C155Claim s 1 := by
  intro group cores markers w ws hw h1 h2
  have hm : max 1 cores.toNat = cores.toNat := by omega
  have hle : cores.toNat ≤ s.cores := by push_cast at h2; omega
  have hl := launch_command s group cores markers w ws hw
  rw [hm, if_pos (hle.trans (Nat.le_mul_of_pos_right _ hs))] at hl
  obtain ⟨l, h3, h4⟩ := (C155_iff s group cores markers w ws hw h1 hs).2 (by omega)
  rw [hl] at h3
  cases h3
  exact ⟨_, hl, rfl, h4, by simp, rfl, rfl, rfl⟩

end Verif.Launch
