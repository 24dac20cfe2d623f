import Verif.Lemmas.Repetitions
import Mathlib.Tactic.FieldSimp
import Mathlib.Algebra.Order.Field.Rat

/-!
C135: the time per repetition of a region is its runtime divided by its repetitions.
-/

namespace Verif.Repetitions

/-- The time is that of one repetition, unless the region shares the argument `marker` with a region called another number of times
(the region `''` is measured only if there is no other, `kernel.py:1951-1952`). -/
theorem C135_own_partial {useMarker : Bool} {args : List (String × Arg)} {regions : List String} {calls : String → Int} {define : List (String × Int)}
    {runtime : String → ℚ} {ts : List (String × ℚ)} (h : times useMarker args regions calls define runtime = .ok ts) (hreg : "" ∈ regions → regions = [""]) :
    ts.map Prod.fst = regions ∧ ∀ p ∈ ts,
      (args.lookup p.1 = none → args.lookup "" = some .marker → ∀ r ∈ regions, args.lookup r = none → calls r = calls p.1) →
      ∃ n : Int, Count args calls define p.1 n ∧ n ≠ 0 ∧ p.2 = runtime p.1 / n := by
  obtain ⟨owners, heap, h1, h2, h3, h4⟩ := times_ok h
  refine ⟨h3, ?_⟩
  intro p hp hc0
  have hr : p.1 ∈ regions := h3 ▸ List.mem_map_of_mem hp
  have hc : args.lookup p.1 = none → args.lookup "" = some .marker → ∀ r ∈ regions, (args.lookup r = none ∨ r = "") → calls r = calls p.1 := by
    intro h5 h6 r hr' h7
    rcases h7 with h7 | rfl
    · exact hc0 h5 h6 r hr' h7
    · rw [hreg hr', List.mem_singleton] at hr
      rw [hr]
  have hc' : p.1 = "" → args.lookup "" = some .marker → ∀ r ∈ regions, args.lookup r = none → calls r = calls p.1 := by
    intro h5 h6 r hr' h7
    rw [h5] at hr
    rw [hreg hr, List.mem_singleton] at hr'
    rw [hr', h5]
  obtain ⟨ho, ha⟩ := h1 _ hr
  have ht := h4 p hp
  simp only [timePer, ho] at ht
  obtain ⟨a, ha⟩ := Option.isSome_iff_exists.1 ha
  have hlo := lookup_owner args p.1
  rw [ha] at hlo
  have hs : ∀ r ∈ regions, owners.lookup r = some (owner args p.1) → owner args r = owner args p.1 := by
    intro r hr' h'
    rw [(h1 r hr').1] at h'
    exact Option.some.inj h'
  have hv : ∀ v, (heap (owner args p.1)).value = some v → v ≠ 0 ∧ p.2 = runtime p.1 / v := by
    intro v hv
    simp only [hv] at ht
    split at ht
    · simp at ht
    · rename_i h0
      exact ⟨h0, (Except.ok.inj ht).symm⟩
  cases a with
  | marker =>
    have := update_marker owners calls define regions _ heap h2 (owner args p.1) (by simp [hlo, Rep.of]) (calls p.1) (by
      intro r hr' h'
      have h' := hs r hr' h'
      simp only [owner] at h'
      cases hp1 : args.lookup p.1 with
      | none =>
        rw [argOf, hp1, Option.none_or] at ha
        rw [hp1] at h'
        cases hr1 : args.lookup r with
        | none => exact hc hp1 ha r hr' (Or.inl hr1)
        | some b =>
          rw [hr1] at h'
          simp only [Option.isSome_some, if_true, Option.isSome_none, Bool.false_eq_true, if_false] at h'
          exact hc hp1 ha r hr' (Or.inr h')
      | some b =>
        rw [hp1] at h'
        cases hr1 : args.lookup r with
        | some c =>
          rw [hr1] at h'
          simp only [Option.isSome_some, if_true] at h'
          rw [h']
        | none =>
          rw [hr1] at h'
          simp only [Option.isSome_some, if_true, Option.isSome_none, Bool.false_eq_true, if_false] at h'
          rw [argOf, hp1, Option.some_or] at ha
          exact hc' h'.symm (by rw [h', hp1, ha]) r hr' hr1)
      (Or.inl ⟨p.1, hr, ho⟩)
    exact ⟨calls p.1, by simp [Count, ha], hv _ this⟩
  | number n =>
    have := (update_other owners calls define regions _ heap h2 (owner args p.1)).2.2.1 (by simp [hlo, Rep.of])
    exact ⟨n, by simp [Count, ha], hv n (by rw [this]; simp [hlo, Rep.of])⟩
  | var x =>
    have := update_var owners calls define regions _ heap h2 (owner args p.1) x (by simp [hlo, Rep.of]) (by simp [hlo, Rep.of]) (Or.inl ⟨p.1, hr, ho⟩)
    obtain ⟨v, hv'⟩ := Option.ne_none_iff_exists'.1 this.2
    exact ⟨v, by rw [Count, ha]; simpa [hv'] using this.1.symm, hv v hv'⟩

/-- All regions are measured right only if those sharing the default were called equally often. -/
theorem C135_shared {useMarker : Bool} {args : List (String × Arg)} {regions : List String} {calls : String → Int} {define : List (String × Int)}
    {runtime : String → ℚ} {ts : List (String × ℚ)} (h : times useMarker args regions calls define runtime = .ok ts) (hr : ∀ r ∈ regions, runtime r ≠ 0)
    (hd : args.lookup "" = some .marker)
    (hall : ∀ p ∈ ts, ∃ n : Int, Count args calls define p.1 n ∧ n ≠ 0 ∧ p.2 = runtime p.1 / n) :
    ∀ r ∈ regions, args.lookup r = none → ∀ r' ∈ regions, args.lookup r' = none → calls r = calls r' := by
  obtain ⟨owners, heap, h1, h2, h3, h4⟩ := times_ok h
  have key : ∀ r ∈ regions, args.lookup r = none → (heap "").value = some (calls r) := by
    intro r hr' hn
    rw [← h3, List.mem_map] at hr'
    obtain ⟨p, hp, rfl⟩ := hr'
    have hm : p.1 ∈ regions := h3 ▸ List.mem_map_of_mem hp
    obtain ⟨n, hn1, hn0, hn2⟩ := hall p hp
    simp only [Count, argOf, hn, Option.none_or, hd] at hn1
    subst hn1
    have ho : owners.lookup p.1 = some "" := by
      rw [(h1 p.1 hm).1, owner, hn]
      simp
    have ht := h4 p hp
    simp only [timePer, ho] at ht
    split at ht
    · simp at ht
    rename_i v hv
    split at ht
    · simp at ht
    rename_i hv0
    have ht := Except.ok.inj ht
    rw [hn2] at ht
    have h0 := hr p.1 hm
    have hv0' : (v : ℚ) ≠ 0 := by exact_mod_cast hv0
    have hn0' : (calls p.1 : ℚ) ≠ 0 := by exact_mod_cast hn0
    field_simp at ht
    rw [hv]
    have : v = calls p.1 := by exact_mod_cast ht.symm
    rw [this]
  intro r h5 h6 r' h7 h8
  have := key r h5 h6
  rw [key r' h7 h8] at this
  exact (Option.some.inj this).symm

/-- C135: exactly when all times refer to the own repetitions: if the repetitions are not counted for all regions together, or are the same for all regions
without own ones. -/
theorem C135_own_iff {useMarker : Bool} {args : List (String × Arg)} {regions : List String} {calls : String → Int} {define : List (String × Int)}
    {runtime : String → ℚ} {ts : List (String × ℚ)} (h : times useMarker args regions calls define runtime = .ok ts) (hreg : "" ∈ regions → regions = [""])
    (hr : ∀ r ∈ regions, runtime r ≠ 0) :
    (∀ p ∈ ts, ∃ n : Int, Count args calls define p.1 n ∧ n ≠ 0 ∧ p.2 = runtime p.1 / n) ↔
      (args.lookup "" = some .marker → ∀ r ∈ regions, args.lookup r = none → ∀ r' ∈ regions, args.lookup r' = none → calls r = calls r') := by
  constructor
  · intro hall hd
    exact C135_shared h hr hd hall
  · intro hs p hp
    obtain ⟨h1, h2⟩ := C135_own_partial h hreg
    refine h2 p hp fun hn hd r hrm hrn => ?_
    exact hs hd r hrm hrn p.1 (h1 ▸ List.mem_map_of_mem hp) hn

/-- Without an argument for a region the program ends. -/
theorem C135_missing (useMarker : Bool) (args : List (String × Arg)) (regions : List String) (calls : String → Int) (define : List (String × Int))
    (runtime : String → ℚ) (h : ∃ r ∈ regions, argOf args r = none) : times useMarker args regions calls define runtime = .error "SystemExit" := by
  simp only [times, initial, bind, Except.bind]
  split
  · rename_i e he
    split at he
    · rw [Except.error.injEq] at he
      rw [he]
    · simp at he
  · rename_i s hs
    split at hs
    · simp at hs
    simp only [Except.ok.injEq] at hs
    subst hs
    simp only
    rw [check_error args regions _ (by
      intro r o h
      rw [lookup_owners] at h
      split at h
      · rename_i ha
        simp [argOf, Option.isSome_or, ha]
      · simp at h) h]

/-- Two regions use the number of calls of the last: `a`, called ten times, takes a hundredth of its time. -/
theorem C135_negation_shared : ∃ ts, times true [("", .marker)] ["a", "b"] (fun r => if r = "a" then 10 else 1000) [] (fun _ => 2) = .ok ts ∧
    ("a", (1 : ℚ) / 500) ∈ ts ∧ Count [("", .marker)] (fun r => if r = "a" then 10 else 1000) [] "a" 10 ∧ (1 : ℚ) / 500 ≠ 2 / (10 : Int) := by
  refine ⟨[("a", 1/500), ("b", 1/500)], by decide +kernel, by decide +kernel, ?_, by decide +kernel⟩
  show (10 : Int) = _
  rfl

/-- Own arguments: a counter, a number and a variable. -/
example : times true [("a", .marker), ("b", .number 5), ("", .var "n")] ["a", "b", "c"] (fun _ => 10) [("n", 4)] (fun _ => 20) =
    .ok [("a", 2), ("b", 4), ("c", 5)] := by decide +kernel

/-- Regions called equally often. -/
example : times true [("", .marker)] ["a", "b"] (fun _ => 10) [] (fun _ => 2) = .ok [("a", 1/5), ("b", 1/5)] := by decide +kernel

example : ∃ r ∈ ["a"], argOf [("b", .number 5)] r = none := by decide +kernel

end Verif.Repetitions
