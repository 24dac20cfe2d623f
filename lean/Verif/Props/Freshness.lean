import Verif.Lemmas.Freshness

/-!
C137: intermediate files that are reused were made from the current inputs.
-/

namespace Verif.Freshness

variable {M V K R : Type}

/-- A file that was written at `w` and is reused at `τ` was made from the files there are now, if none of them was changed between being read and `w` and
time stamps tell when a file was changed. Files of kerncraft are those at the first check of the process, at `first`. -/
theorem C137_current_partial {w : Int} {result : R} {machine : History M} {zone : Int} {package : List (History V)} {first : Int} {code : History K} {τ : Int}
    (h : check (some (w, result)) (some machine) zone package first code τ = .ok true)
    {rm rp rk : Int} (hm : rm ≤ τ) (hp : rp ≤ first) (hk : rk ≤ τ)
    (cm : Chronological machine) (cp : ∀ p ∈ package, Chronological p) (ck : Chronological code)
    (sm : Honest machine) (sp : ∀ p ∈ package, Honest p) (sk : Honest code)
    (qm : Quiet machine rm w) (qp : ∀ p ∈ package, Quiet p rp w) (qk : Quiet code rk w) :
    (∀ x, Content machine rm x ↔ Content machine τ x) ∧ (∀ p ∈ package, ∀ x, Content p rp x ↔ Content p first x) ∧
      ∀ x, Content code rk x ↔ Content code τ x := by
  simp only [check, machineStamp] at h
  cases h1 : machine.current τ with
  | none => simp [h1] at h
  | some m =>
    simp only [h1] at h
    split at h
    · simp at h
    rename_i h2
    split at h
    · simp at h
    rename_i h3
    rw [not_not] at h2 h3
    cases h4 : code.current τ with
    | none => simp [h4] at h
    | some k =>
      simp only [h4, Except.ok.injEq, decide_eq_true_eq] at h
      refine ⟨unchanged cm sm hm qm h1 h2, ?_, unchanged ck sk hk qk h4 h⟩
      intro p hp' x
      cases h5 : p.current first with
      | some v => exact unchanged (cp p hp') (sp p hp') hp (qp p hp') h5 (lt_of_le_of_lt (packageStamp_ge package first 0 hp' h5) h3) x
      | none =>
        have hno : ∀ v ∈ p, ¬ v.since ≤ first := by
          intro v hv ht
          obtain ⟨u, hu⟩ := current_some ⟨v, hv, ht⟩
          rw [h5] at hu
          cases hu
        constructor
        · rintro ⟨v, hv, -, ht, -⟩
          exact absurd (le_trans ht hp) (hno v hv)
        · rintro ⟨v, hv, -, ht, -⟩
          exact absurd ht (hno v hv)

/-- A file is reused if all versions since it was written are older. -/
theorem C137_reused {w : Int} (hw : 0 < w) (result : R) {machine : History M} (zone : Int) {package : List (History V)} {first : Int} {code : History K} {τ : Int}
    (em : ∃ v ∈ machine, v.since ≤ τ) (ek : ∃ v ∈ code, v.since ≤ τ) (cm : Chronological machine) (cp : ∀ p ∈ package, Chronological p) (ck : Chronological code)
    (hm : ∀ v ∈ machine, v.since ≤ τ → v.stamp < w) (hp : ∀ p ∈ package, ∀ v ∈ p, v.since ≤ first → v.stamp < w) (hk : ∀ v ∈ code, v.since ≤ τ → v.stamp < w) :
    check (some (w, result)) (some machine) zone package first code τ = .ok true := by
  obtain ⟨m, h1⟩ := current_some em
  obtain ⟨k, h2⟩ := current_some ek
  have h3 := current_spec cm h1
  have h4 := current_spec ck h2
  have h5 : packageStamp package first < w := packageStamp_lt package first 0 w hw fun p hp' v hv => by
    have := current_spec (cp p hp') hv
    exact hp p hp' v this.1 this.2.1
  simp only [check, machineStamp, h1, h2]
  rw [if_neg (not_not.2 (hm m h3.1 h3.2.1)), if_neg (not_not.2 h5)]
  simp [hk k h4.1 h4.2.1]

/-- Changed files of kerncraft, machine or code are noticed: with a later time stamp on any of them nothing is reused. -/
theorem C137_changed {w : Int} (result : R) {machine : History M} (zone : Int) {package : List (History V)} {first : Int} {code : History K} {τ : Int}
    (h : (∃ v, machine.current τ = some v ∧ w ≤ v.stamp) ∨ (∃ p ∈ package, ∃ v, p.current first = some v ∧ w ≤ v.stamp) ∨ ∃ v, code.current τ = some v ∧ w ≤ v.stamp) :
    check (some (w, result)) (some machine) zone package first code τ ≠ .ok true := by
  intro hc
  simp only [check, machineStamp] at hc
  cases h1 : machine.current τ with
  | none => simp [h1] at hc
  | some m =>
    simp only [h1] at hc
    split at hc
    · simp at hc
    rename_i h2
    split at hc
    · simp at hc
    rename_i h3
    rw [not_not] at h2 h3
    rcases h with ⟨v, h4, h5⟩ | ⟨p, hp, v, h4, h5⟩ | ⟨v, h4, h5⟩
    · rw [h1] at h4
      cases h4
      omega
    · have h6 : v.stamp ≤ packageStamp package first := packageStamp_ge package first 0 hp h4
      omega
    · simp only [h4, Except.ok.injEq, decide_eq_true_eq] at hc
      omega

/-- Without a machine file nothing is reused where local time is not behind UTC. -/
theorem C137_no_file {w : Int} (result : R) {zone : Int} (hz : 0 ≤ zone) (package : List (History V)) (first : Int) (code : History K) {τ : Int} (hw : w ≤ τ) :
    check (M := M) (some (w, result)) none zone package first code τ = .ok false := by
  simp only [check, machineStamp]
  rw [if_pos (by omega)]

/-- The machine file was changed after it was read at 3 and before the result was written at 7: the result of the old version is reused. -/
theorem C137_negation_changed_while_running : ∃ machine : History Nat, Chronological machine ∧ Honest machine ∧ Content machine 3 1 ∧ Content machine 10 2 ∧
    check (some (7, "result of 1")) (some machine) 0 [[⟨1, 1, ()⟩]] 10 [⟨2, 2, ()⟩] 10 = .ok true := by
  refine ⟨[⟨1, 1, 1⟩, ⟨5, 5, 2⟩], by unfold Chronological; decide, by unfold Honest; decide, ?_, ?_, by decide⟩
  · exact ⟨⟨1, 1, 1⟩, by decide, rfl, by decide, by decide⟩
  · exact ⟨⟨5, 5, 2⟩, by decide, rfl, by decide, by decide⟩

/-- The machine file was replaced at 8 by one with an old time stamp: the result of the old version, written at 7, is reused. -/
theorem C137_negation_stamp : ∃ machine : History Nat, Chronological machine ∧ Quiet machine 3 7 ∧ Content machine 3 1 ∧ Content machine 10 2 ∧
    check (some (7, "result of 1")) (some machine) 0 [[⟨1, 1, ()⟩]] 10 [⟨2, 2, ()⟩] 10 = .ok true := by
  refine ⟨[⟨1, 1, 1⟩, ⟨8, 2, 2⟩], by unfold Chronological; decide, by unfold Quiet; decide, ?_, ?_, by decide⟩
  · exact ⟨⟨1, 1, 1⟩, by decide, rfl, by decide, by decide⟩
  · exact ⟨⟨8, 2, 2⟩, by decide, rfl, by decide, by decide⟩

/-- Without a machine file, results of the last hours are reused for every machine where local time is behind UTC. -/
theorem C137_negation_zone {w : Int} (hw : 0 < w) (result : R) {zone : Int} {package : List (History V)} {first : Int} {code : History K} {τ : Int} (hz : τ + zone < w)
    (ek : ∃ v ∈ code, v.since ≤ τ) (cp : ∀ p ∈ package, Chronological p) (ck : Chronological code)
    (hp : ∀ p ∈ package, ∀ v ∈ p, v.since ≤ first → v.stamp < w) (hk : ∀ v ∈ code, v.since ≤ τ → v.stamp < w) :
    check (M := M) (some (w, result)) none zone package first code τ = .ok true := by
  obtain ⟨k, h2⟩ := current_some ek
  have h4 := current_spec ck h2
  have h5 : packageStamp package first < w := packageStamp_lt package first 0 w hw fun p hp' v hv => by
    have := current_spec (cp p hp') hv
    exact hp p hp' v this.1 this.2.1
  simp only [check, machineStamp, h2]
  rw [if_neg (not_not.2 hz), if_neg (not_not.2 h5)]
  simp [hk k h4.1 h4.2.1]

/-- A machine file that was changed before it was read, and a result that is reused. -/
example : let machine : History Nat := [⟨1, 1, 1⟩, ⟨5, 5, 2⟩]
    check (some (7, "result of 2")) (some machine) 0 [[⟨1, 1, ()⟩], [⟨3, 3, ()⟩]] 8 [⟨2, 2, ()⟩] 10 = .ok true ∧
    Chronological machine ∧ Honest machine ∧ Quiet machine 6 7 := by
  refine ⟨by decide, ?_, ?_, ?_⟩
  · unfold Chronological; decide
  · unfold Honest; decide
  · unfold Quiet; decide

/-- A file of kerncraft that is changed later. -/
example : History.current [⟨1, 1, ()⟩, ⟨8, 8, ()⟩] 9 = some ⟨8, 8, ()⟩ ∧
    check (some (7, "result")) (some [⟨1, 1, ()⟩]) 0 [[⟨1, 1, ()⟩, ⟨8, 8, ()⟩]] 9 [⟨2, 2, ()⟩] 10 = .ok false := by decide

/-- One hour behind UTC. -/
example : check (M := Unit) (some (7000000000, "result")) none (-3600000000) [[⟨1, 1, ()⟩]] 8 [⟨2, 2, ()⟩] 8000000000 = .ok true := by decide +kernel

end Verif.Freshness
