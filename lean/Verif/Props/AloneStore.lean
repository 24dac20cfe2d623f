import Verif.Lemmas.AloneStore

/-!
Property C143: results of the stand-alone benchmark are stored under what was measured. Model: `Verif.AloneStore`,
`Verif.Standalone`.
-/

namespace Verif.AloneStore

open Verif.Standalone Verif.Measure

/-- C143: after a run its results are found under the name of the program and the values of the definitions that were the
arguments of the last measurement (one for each definition, in their order, as at the end of `Standalone.run`), and all
other results, also those of other models under the same name and values, are as before. -/
theorem C143_stored {ρ : Type} (measure : Setup → Nat → St → List (String × ℚ)) (result : Setup → List ℚ → ρ) (fuel : Nat) (x : Setup)
    (s s' : Storage ρ) (hn : (x.vars.map (·.name)).Nodup) (h : run measure result fuel x s = some (.ok s')) :
    ∃ values : List ℚ, values.length = x.vars.length ∧
      (∃ st, Standalone.run (measure x) fuel ⟨x.vars, x.heap, x.loops⟩ = some (.ok st) ∧ values = st.vars.map (·.value)) ∧
      find s' (baseName x.binary) ((x.vars.map (·.name)).zip values) = some (result x values) ∧
      ∀ name c model, (name, c, model) ≠ (baseName x.binary, (x.vars.map (·.name)).zip values, "stand-alone benchmark") →
        findOf s' name c model = findOf s name c model := by
  unfold run at h
  split at h
  · cases h
  · cases h
  · rename_i st c last hm
    simp only [Option.some.injEq, Except.ok.injEq] at h
    subst h
    rw [initial_eq _ hn] at hm
    obtain ⟨h1, h2, h3⟩ := measureLoop_consts (measure x) fuel 0 [("", 0)] ⟨x.vars, x.heap, x.loops⟩ [] st c last hn (Or.inr rfl) hm
    simp only at h1
    have hst := measureLoop_states (measure x) fuel 0 [("", 0)] ⟨x.vars, x.heap, x.loops⟩ (constsOf x.vars) []
    rw [hm] at hst
    have hz : c = (x.vars.map (·.name)).zip last := by
      rw [h2, h3, ← h1, constsOf, List.zip_map']
    refine ⟨last, ?_, ⟨st, hst.symm, h3⟩, ?_, ?_⟩
    · rw [h3, List.length_map]
      have := congrArg List.length h1
      simpa using this
    · rw [find_store, hz, if_pos ⟨rfl, rfl⟩]
    · intro name d m hd
      rw [findOf_store, hz, if_neg]
      rintro ⟨rfl, rfl, rfl⟩
      exact hd rfl

/-- C143: a file of results that is read again by the next run keeps the results of the earlier one, if the names of the
programs or the names of the definitions differ. Missing: other differences, see the negations. -/
theorem C143_apart_partial {ρ : Type} (measure : Setup → Nat → St → List (String × ℚ)) (result : Setup → List ℚ → ρ) (fuel fuel' : Nat)
    (x y : Setup) (s s' s'' : Storage ρ) (hx : (x.vars.map (·.name)).Nodup) (hy : (y.vars.map (·.name)).Nodup)
    (hd : baseName x.binary ≠ baseName y.binary ∨ x.vars.map (·.name) ≠ y.vars.map (·.name))
    (h : run measure result fuel x s = some (.ok s')) (h' : run measure result fuel' y s' = some (.ok s'')) :
    ∃ values values' : List ℚ, find s'' (baseName x.binary) ((x.vars.map (·.name)).zip values) = some (result x values) ∧
      find s'' (baseName y.binary) ((y.vars.map (·.name)).zip values') = some (result y values') := by
  obtain ⟨v, h1, -, h2, -⟩ := C143_stored measure result fuel x s s' hx h
  obtain ⟨v', h1', -, h2', h3'⟩ := C143_stored measure result fuel' y s' s'' hy h'
  refine ⟨v, v', ?_, h2'⟩
  unfold find at h2 ⊢
  rw [h3' _ _ _ ?_, h2]
  intro e
  rw [Prod.mk.injEq, Prod.mk.injEq] at e
  rcases hd with hd | hd
  · exact hd e.1
  · apply hd
    have := congrArg (List.map Prod.fst) e.2.1
    rwa [List.map_fst_zip (by simp [h1]), List.map_fst_zip (by simp [h1'])] at this

/-- C143: exactly when the results of the earlier run are still found: if the name of the program, a name of the definitions or one of the values measured
differs, or the results are the same. -/
theorem C143_apart_iff {ρ : Type} (measure : Setup → Nat → St → List (String × ℚ)) (result : Setup → List ℚ → ρ) (fuel fuel' : Nat)
    (x y : Setup) (s s' s'' : Storage ρ) (st st' : St) (hx : (x.vars.map (·.name)).Nodup) (hy : (y.vars.map (·.name)).Nodup)
    (h : run measure result fuel x s = some (.ok s')) (h' : run measure result fuel' y s' = some (.ok s''))
    (hst : Standalone.run (measure x) fuel ⟨x.vars, x.heap, x.loops⟩ = some (.ok st))
    (hst' : Standalone.run (measure y) fuel' ⟨y.vars, y.heap, y.loops⟩ = some (.ok st')) :
    find s'' (baseName x.binary) ((x.vars.map (·.name)).zip (st.vars.map (·.value))) = some (result x (st.vars.map (·.value))) ↔
      baseName x.binary ≠ baseName y.binary ∨ x.vars.map (·.name) ≠ y.vars.map (·.name) ∨ st.vars.map (·.value) ≠ st'.vars.map (·.value) ∨
        result x (st.vars.map (·.value)) = result y (st'.vars.map (·.value)) := by
  obtain ⟨v, h1, ⟨t, ht, hv⟩, h2, -⟩ := C143_stored measure result fuel x s s' hx h
  obtain ⟨v', h1', ⟨t', ht', hv'⟩, h2', h3'⟩ := C143_stored measure result fuel' y s' s'' hy h'
  rw [hst] at ht
  rw [hst'] at ht'
  cases ht
  cases ht'
  rw [← hv, ← hv']
  unfold find at h2 h2' ⊢
  by_cases hk : baseName x.binary = baseName y.binary ∧ x.vars.map (·.name) = y.vars.map (·.name) ∧ v = v'
  · obtain ⟨k1, k2, k3⟩ := hk
    rw [k1, k2, k3, h2']
    simp [eq_comm]
  · rw [h3' _ _ _ ?_, h2]
    · refine iff_of_true rfl ?_
      tauto
    · intro e
      rw [Prod.mk.injEq, Prod.mk.injEq] at e
      have a := congrArg (List.map Prod.fst) e.2.1
      have b := congrArg (List.map Prod.snd) e.2.1
      rw [List.map_fst_zip (by simp [h1]), List.map_fst_zip (by simp [h1'])] at a
      rw [List.map_snd_zip (by simp [h1]), List.map_snd_zip (by simp [h1'])] at b
      exact hk ⟨e.1, a, b⟩

/-! ### Witnesses -/

/-- `-D N 100:1000 -D R 5 -L 0:100:N`; the program runs a second for each 100 of `N`. -/
def wSetup (binary machine : String) (cores : Nat) (vars : List Var) : Setup :=
  ⟨binary.toList, machine.toList, cores, vars, [⟨0, 100, 1, some "N", 0⟩], [("", [0])]⟩
def wN : Var := ⟨"N", [""], 100, 1000, true, false⟩
def wR : Var := ⟨"R", [""], 5, 0, false, false⟩
def wMeasure (_ : Setup) (_ : Nat) (st : St) : List (String × ℚ) :=
  [("", ((st.vars.find? (fun v => v.name = "N")).elim 0 Var.value) / 100)]

/-- What is stored of a run: machine file, cores and values of the constants. -/
structure WResult where
  machine : List Char
  cores : Nat
  values : List ℚ
deriving DecidableEq

/-- A column of the results. -/
abbrev WColumn := String × WResult
instance : DecidableEq WColumn := inferInstance
instance : DecidableEq (Consts × List WColumn) := inferInstance
instance : DecidableEq (Storage WResult) :=
  inferInstanceAs (DecidableEq (List (List Char × List (Consts × List WColumn))))

def wResult (x : Setup) (values : List ℚ) : WResult := ⟨x.machine, x.cores, values⟩

/-- The storage after some runs. -/
def wRuns (xs : List Setup) : Option (Storage WResult) :=
  xs.foldl (fun s x => s.bind fun s => match run wMeasure wResult 10 x s with
    | some (.ok s') => some s'
    | _ => none) (some [])

/-- One run: `N` is adjusted to 200. -/
example : wRuns [wSetup "/opt/a/triad" "skl.yml" 1 [wN, wR]] =
    some [("triad".toList, [([("N", 200), ("R", 5)], [("stand-alone benchmark", ⟨"skl.yml".toList, 1, [200, 5]⟩)])])] := by decide +kernel

/-- Two programs. -/
example : (wRuns [wSetup "/opt/a/triad" "skl.yml" 1 [wN, wR], wSetup "/opt/a/copy" "skl.yml" 1 [wN]]).map (fun s =>
    (find s "triad".toList [("N", 200), ("R", 5)], find s "copy".toList [("N", 200)])) =
    some (some ⟨"skl.yml".toList, 1, [200, 5]⟩, some ⟨"skl.yml".toList, 1, [200]⟩) := by decide +kernel

/-- The result of another model under the same name and values is kept. -/
example : (match run wMeasure wResult 10 (wSetup "/opt/a/triad" "skl.yml" 1 [wN, wR])
      [("triad".toList, [([("N", 200), ("R", 5)], [("ECM", ⟨[], 7, []⟩)])])] with
    | some (.ok s) => (findOf s "triad".toList [("N", 200), ("R", 5)] "ECM", find s "triad".toList [("N", 200), ("R", 5)])
    | _ => (none, none)) = (some ⟨[], 7, []⟩, some ⟨"skl.yml".toList, 1, [200, 5]⟩) := by decide +kernel

/-- C143 fails for different programs of the same name, for different machine files and for different numbers of cores:
the results of the first run are lost. -/
theorem C143_negation_lost (binary machine : String) (cores : Nat)
    (h : (binary, machine, cores) ∈ [("/opt/b/triad", "skl.yml", 1), ("/opt/a/triad", "bdw.yml", 1), ("/opt/a/triad", "skl.yml", 4)]) :
    wRuns [wSetup "/opt/a/triad" "skl.yml" 1 [wN, wR], wSetup binary machine cores [wN, wR]] =
      wRuns [wSetup binary machine cores [wN, wR]] := by
  simp only [List.mem_cons, Prod.mk.injEq, List.not_mem_nil, or_false] at h
  rcases h with ⟨rfl, rfl, rfl⟩ | ⟨rfl, rfl, rfl⟩ | ⟨rfl, rfl, rfl⟩ <;> decide +kernel

/-- The same measurement is stored twice if the definitions are given in another order. -/
theorem C143_negation_order :
    (wRuns [wSetup "/opt/a/triad" "skl.yml" 1 [wN, wR], wSetup "/opt/a/triad" "skl.yml" 1 [wR, wN]]).map (fun s =>
      (find s "triad".toList [("N", 200), ("R", 5)], find s "triad".toList [("R", 5), ("N", 200)])) =
    some (some ⟨"skl.yml".toList, 1, [200, 5]⟩, some ⟨"skl.yml".toList, 1, [5, 200]⟩) := by decide +kernel

end Verif.AloneStore
