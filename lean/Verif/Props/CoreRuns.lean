import Verif.Lemmas.CoreRuns

/-!
C146: The number of cores of a run reaches every model, whatever was run before.
-/

namespace Verif.CoreRuns

variable {R : Type} (levels : List Machine.Level) (numaCores : Nat) (ana : Kind → Consts → List Nat → R)

/-- C146, predictions, part: after any runs that do not mix `LC` with predicting models, each model of such a run predicts with
the caches for the cores of the run. Missing: mixed runs (`C146_negation_before`, `C146_negation_after`). -/
theorem C146_predictions_partial (hn : 0 < numaCores) (history : List Run)
    (hh : ∀ r ∈ history, 0 < r.cores ∧ Unmixed levels numaCores r) (r : Run) (hc : 0 < r.cores)
    (hu : Unmixed levels numaCores r) :
    ∃ disk out disk', runs levels numaCores ana history (fun _ => none) = some disk ∧
      run levels numaCores ana r disk = some (out, disk') ∧ out.map (·.1) = stepsOf r ∧
      ∀ consts name o, ((consts, name), o) ∈ out → name ∈ predicts →
        o = .prediction (right levels numaCores ana r.predictor r.cores consts) := by
  obtain ⟨disk, h1, h2⟩ := runs_sound levels numaCores ana hn history (fun _ => none) hh (by intro k n c r h; simp at h)
  obtain ⟨out, disk', h3, h4, h5, -⟩ := run_good levels numaCores ana r hn hc hu disk h2
  refine ⟨disk, out, disk', h1, h3, h4, ?_⟩
  intro consts name o hx hp
  have := h5 _ hx
  unfold Good at this
  cases o with
  | prediction p => rw [this.2]
  | conditions c heading =>
    obtain ⟨rfl, -⟩ : name = "LC" ∧ _ := this
    exact absurd hp (by decide)
  | nothing => exact absurd hp this.1

/-- C146, part: with one core, or if no cache is shared, the layer conditions are right as well, and so is the size in their
heading. Missing: more cores (`C146_negation_layer`, `C146_negation_heading`). -/
theorem C146_conditions_partial (hn : 0 < numaCores) (history : List Run)
    (hh : ∀ r ∈ history, 0 < r.cores ∧ Unmixed levels numaCores r) (r : Run) (hc : 0 < r.cores)
    (hone : setsAt levels numaCores r.cores = setsAt levels numaCores 1) :
    ∃ disk out disk', runs levels numaCores ana history (fun _ => none) = some disk ∧
      run levels numaCores ana r disk = some (out, disk') ∧ out.map (·.1) = stepsOf r ∧
      AllRight levels numaCores ana r out := by
  obtain ⟨disk, h1, h2⟩ := runs_sound levels numaCores ana hn history (fun _ => none) hh (by intro k n c r h; simp at h)
  obtain ⟨out, disk', h3, h4, h5, -⟩ := run_good levels numaCores ana r hn hc (fun _ _ => hone) disk h2
  refine ⟨disk, out, disk', h1, h3, h4, ?_⟩
  intro x hx
  have := h5 x hx
  unfold Good at this
  obtain ⟨s, o⟩ := x
  cases o with
  | prediction p => exact this.2
  | conditions c heading =>
    obtain ⟨-, h6, h7⟩ := this
    refine ⟨?_, ?_⟩
    · rw [h6]; unfold right; rw [hone]
    · rcases h7 with h7 | h7
      · rw [h7, hone]
      · exact h7
  | nothing => exact this

/-- C146: after any unmixed runs, whatever the number of cores, `LC` shows the conditions for one core. -/
theorem C146_conditions_one (hn : 0 < numaCores) (history : List Run)
    (hh : ∀ r ∈ history, 0 < r.cores ∧ Unmixed levels numaCores r) (r : Run) (hc : 0 < r.cores)
    (hu : Unmixed levels numaCores r) :
    ∃ disk out disk', runs levels numaCores ana history (fun _ => none) = some disk ∧
      run levels numaCores ana r disk = some (out, disk') ∧ out.map (·.1) = stepsOf r ∧
      ∀ consts o, ((consts, "LC"), o) ∈ out →
        ∃ heading, o = .conditions (right levels numaCores ana .lc 1 consts) heading := by
  obtain ⟨disk, h1, h2⟩ := runs_sound levels numaCores ana hn history (fun _ => none) hh (by intro k n c r h; simp at h)
  obtain ⟨out, disk', h3, h4, h5, -⟩ := run_good levels numaCores ana r hn hc hu disk h2
  refine ⟨disk, out, disk', h1, h3, h4, ?_⟩
  intro consts o hx
  have := h5 _ hx
  unfold Good at this
  cases o with
  | prediction p => exact absurd (show "LC" ∈ predicting from this.1) (by decide)
  | conditions c heading => exact ⟨heading, by rw [this.2.1]⟩
  | nothing => exact absurd rfl this.2

/-! ### Witnesses: `examples/machine-files/SandyBridgeEP_E5-2680.yml` -/

def snb : List Machine.Level := [⟨64, 1⟩, ⟨512, 1⟩, ⟨20480, 8⟩]

/-- The analysis tells what it was made for. -/
def tell (k : Kind) (consts : Consts) (sets : List Nat) : Kind × Consts × List Nat := (k, consts, sets)

/-- What a run shows, as text. -/
def shown : Outcome (Kind × Consts × List Nat) → List Nat × List Nat
  | .prediction p => (p.2.2, [])
  | .conditions c heading => (c.2.2, heading)
  | .nothing => ([], [])

/-- What the last of several runs shows. -/
def lastShown (history : List Run) (r : Run) : Option (List (List Nat × List Nat)) :=
  (runs snb 8 tell history (fun _ => none)).bind fun disk => (run snb 8 tell r disk).map fun x => x.1.map fun o => shown o.2

/-- `--cores 8 -p LC`: the conditions are those for one core. -/
theorem C146_negation_layer : setsAt snb 8 8 = [64, 512, 2560] ∧
    lastShown [] ⟨8, .sim, [[]], ["LC"]⟩ = some [([64, 512, 20480], [64, 512, 20480])] := by
  decide +kernel

/-- `--cores 8 -p LC` after `-p LC`: now the heading has the size for eight cores, above the conditions for one. -/
theorem C146_negation_heading :
    lastShown [⟨1, .sim, [[]], ["LC"]⟩] ⟨8, .sim, [[]], ["LC"]⟩ = some [([64, 512, 20480], [64, 512, 2560])] := by
  decide +kernel

/-- `-P LC -p ECMData` with one core after `--cores 8 -P LC -p ECMData -p LC`: predicted with an eighth of the third level. -/
theorem C146_negation_before : lastShown [⟨8, .lc, [[]], ["ECMData", "LC"]⟩] ⟨1, .lc, [[]], ["ECMData"]⟩ =
    some [([64, 512, 2560], [])] := by
  decide +kernel

/-- `--cores 8 -p LC -p ECMData`: predicted with the whole third level. -/
theorem C146_negation_after : lastShown [] ⟨8, .sim, [[("N", 1000)]], ["LC", "ECMData"]⟩ =
    some [([64, 512, 20480], [64, 512, 20480]), ([64, 512, 20480], [])] := by
  decide +kernel

/-! ### Examples -/

example : ∃ disk out disk', runs snb 8 tell [⟨4, .lc, [[("N", 100)]], ["ECM", "RooflineFLOP"]⟩, ⟨2, .sim, [[]], ["LC", "Benchmark"]⟩]
      (fun _ => none) = some disk ∧
    run snb 8 tell ⟨4, .lc, [[("N", 100)], [("N", 200)]], ["ECMCPU", "ECMData"]⟩ disk = some (out, disk') ∧
    out.map (·.1) = stepsOf ⟨4, .lc, [[("N", 100)], [("N", 200)]], ["ECMCPU", "ECMData"]⟩ ∧
    ∀ consts name o, ((consts, name), o) ∈ out → name ∈ predicts → o = .prediction (right snb 8 tell .lc 4 consts) := by
  refine C146_predictions_partial snb 8 tell (by decide) _ ?_ ⟨4, .lc, [[("N", 100)], [("N", 200)]], ["ECMCPU", "ECMData"]⟩
    (by decide) ?_
  · intro r hr
    simp only [List.mem_cons, List.not_mem_nil, or_false] at hr
    rcases hr with rfl | rfl
    · exact ⟨by decide, fun h => absurd h (by decide)⟩
    · refine ⟨by decide, fun _ ⟨m, hm, hp⟩ => ?_⟩
      simp only [List.mem_cons, List.not_mem_nil, or_false] at hm
      rcases hm with rfl | rfl <;> exact absurd hp (by decide)
  · exact fun h => absurd h (by decide)

example : lastShown [⟨4, .lc, [[("N", 100)]], ["ECM", "RooflineFLOP"]⟩, ⟨2, .sim, [[]], ["LC", "Benchmark"]⟩]
    ⟨4, .lc, [[("N", 100)], [("N", 200)]], ["ECMCPU", "ECMData"]⟩ =
      some [([], []), ([64, 512, 5120], []), ([], []), ([64, 512, 5120], [])] := by
  decide +kernel

example : ∃ disk out disk', runs snb 8 tell [⟨4, .lc, [[]], ["ECM"]⟩] (fun _ => none) = some disk ∧
    run snb 8 tell ⟨1, .lc, [[]], ["LC", "ECM"]⟩ disk = some (out, disk') ∧
    out.map (·.1) = stepsOf ⟨1, .lc, [[]], ["LC", "ECM"]⟩ ∧ AllRight snb 8 tell ⟨1, .lc, [[]], ["LC", "ECM"]⟩ out :=
  C146_conditions_partial snb 8 tell (by decide) [⟨4, .lc, [[]], ["ECM"]⟩]
    (by
      intro r hr
      obtain rfl := List.mem_singleton.1 hr
      exact ⟨by decide, fun h => absurd h (by decide)⟩)
    ⟨1, .lc, [[]], ["LC", "ECM"]⟩ (by decide) rfl

example : ∃ disk out disk', runs snb 8 tell [⟨1, .sim, [[]], ["LC"]⟩] (fun _ => none) = some disk ∧
    run snb 8 tell ⟨8, .sim, [[]], ["LC"]⟩ disk = some (out, disk') ∧ out.map (·.1) = stepsOf ⟨8, .sim, [[]], ["LC"]⟩ ∧
    ∀ consts o, ((consts, "LC"), o) ∈ out → ∃ heading, o = .conditions (right snb 8 tell .lc 1 consts) heading := by
  have hp : ∀ n : Nat, Unmixed snb 8 ⟨n, .sim, [[]], ["LC"]⟩ := by
    intro n _ ⟨m, hm, hp⟩
    obtain rfl := List.mem_singleton.1 hm
    exact absurd hp (by decide)
  refine C146_conditions_one snb 8 tell (by decide) [⟨1, .sim, [[]], ["LC"]⟩] ?_ ⟨8, .sim, [[]], ["LC"]⟩ (by decide) (hp 8)
  intro r hr
  obtain rfl := List.mem_singleton.1 hr
  exact ⟨by decide, hp 1⟩

end Verif.CoreRuns
