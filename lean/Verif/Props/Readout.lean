import Verif.Lemmas.Readout

/-!
C124: readouts of the machine are the same for all callers; C125: the current system is recognised.
-/

namespace Verif.Readout

variable {α : Type}

/-- C124: after any calls a comparison and an update give what they give in a new process, although comparisons change memoised dictionaries. -/
theorem C124_history [DecidableEq α] (env : Machine α) (calls : List (Call α)) (c : Call α) : (step env (after env {} calls) c).1 = (step env {} c).1 := by
  have hi := after_inv env {} calls (Inv.init env)
  cases c with
  | current machine =>
    simp only [step]
    rw [(currentSystem_spec env machine _ hi).2, (currentSystem_spec env machine _ (Inv.init env)).2]
  | update r h o path data =>
    simp only [step]
    rw [(update_spec env r h o path data _ hi).2, (update_spec env r h o path data _ (Inv.init env)).2]

/-- C124: after any calls an update changes exactly the requested entries to what is read from the machine. -/
theorem C124_update [DecidableEq α] (env : Machine α) (calls : List (Call α)) (r h o : Bool) (path : String) (data : Dict α) (d : Dict α) (x : α)
    (hd : env.readouts path = .ok d) (hx : env.hierarchy o d = .ok x) :
    ∃ new, (step env (after env {} calls) (.update r h o path data)).1 = .update none new ∧
      (h = true → new "memory hierarchy" = some x) ∧
      ∀ k, h = false ∨ k ≠ "memory hierarchy" →
        (r = true → ∀ v, d k = some v → new k = some v) ∧ (r = false ∨ d k = none → new k = data k) := by
  have hu := (update_spec env r h o path data _ (after_inv env {} calls (Inv.init env))).2
  simp only [step, hu, hierOf, Option.getD_some, hd, hx]
  cases r <;> cases h <;> simp only [Bool.false_eq_true, if_false, if_true]
  · refine ⟨_, rfl, by simp, fun k _ => ⟨by simp, fun _ => rfl⟩⟩
  · refine ⟨_, rfl, fun _ => by simp [upd, hier], fun k hk => ⟨by simp, fun _ => ?_⟩⟩
    have hk : k ≠ "memory hierarchy" := by simpa using hk
    simp [upd, hier, hk]
  · refine ⟨_, rfl, by simp, fun k _ => ⟨fun _ v hv => by simp [upd, hv], fun hk => ?_⟩⟩
    have hk : d k = none := by simpa using hk
    simp [upd, hk]
  · refine ⟨_, rfl, fun _ => by simp [upd, hier], fun k hk => ?_⟩
    have hk : k ≠ "memory hierarchy" := by simpa using hk
    refine ⟨fun _ v hv => by simp [upd, hier, hk, hv], fun hk' => ?_⟩
    have hk' : d k = none := by simpa using hk'
    simp [upd, hier, hk, hk']

/-- A machine with two sockets; numbers stand for all values. -/
def node : Machine Nat where
  readouts := fun p => if p = cpuinfo then .ok fun k => if k ∈ keys then some 2 else none else .error "FileNotFoundError"
  hierarchy := fun placeholders d => if placeholders then .ok (10 + (d "sockets").getD 0) else .error "KeyError"

example : node.readouts cpuinfo = .ok (fun k => if k ∈ keys then some 2 else none) ∧ node.hierarchy true (fun k => if k ∈ keys then some 2 else none) = .ok 12 := by
  constructor <;> rfl

-- a comparison changes the memoised dictionary, an update afterwards reads the machine again
example : ((after node {} [.current fun _ => some 2]).heap.map fun d => (d "sockets", d "memory hierarchy")) = [(some 2, some 12), (some 2, none), (none, some 12)] := by
  rfl

/-- What should be compared of a machine, besides the memory hierarchy (`machinemodel.py:547`: "specs and configuration"). -/
def compared : List String := ["model type", "model name", "sockets", "cores per socket", "threads per core", "NUMA domains per socket",
  "cores per NUMA domain", "transparent hugepage"]

/-- C125, partial: after any calls the current system is accepted exactly if it agrees with the description in all compared entries, and exactly those that
differ are printed. Missing: the memory hierarchy (`C125_negation_caches`) and descriptions without one of the entries. -/
theorem C125_same_partial [DecidableEq α] (env : Machine α) (calls : List (Call α)) (machine d : Dict α) (x : α) (hd : env.readouts cpuinfo = .ok d)
    (hx : env.hierarchy true d = .ok x) (hk : ∀ k ∈ compared, (d k).isSome ∧ (machine k).isSome) :
    ∃ same printed, (step env (after env {} calls) (.current machine)).1 = .current (.ok (same, printed)) ∧
      (same = true ↔ ∀ k ∈ compared, d k = machine k) ∧ ∀ k, k ∈ printed ↔ k ∈ compared ∧ d k ≠ machine k := by
  have hu := (currentSystem_spec env machine _ (after_inv env {} calls (Inv.init env))).2
  have hne : ∀ k ∈ keys, upd d (hier x) k = d k := by
    intro k hk
    have : k ≠ "memory hierarchy" := by
      rintro rfl
      revert hk
      decide
    simp [upd, hier, this]
  have hdiff := differing_spec (upd d (hier x)) machine keys fun k h => by rw [hne k h]; exact hk k h
  simp only [step, hu, system, hd, hx, hdiff]
  refine ⟨_, _, rfl, ?_, ?_⟩
  · rw [List.isEmpty_iff, List.filter_eq_nil_iff]
    constructor
    · intro h k hk
      have := h k hk
      rw [hne k hk] at this
      simpa using this
    · intro h k hk
      rw [hne k hk, h k hk]
      simp
  · intro k
    rw [List.mem_filter]
    constructor
    · rintro ⟨h1, h2⟩
      rw [hne k h1] at h2
      exact ⟨h1, by simpa using h2⟩
    · rintro ⟨h1, h2⟩
      refine ⟨h1, ?_⟩
      rw [hne k h1]
      simpa using h2

example : ∀ k ∈ compared, ((fun k => if k ∈ keys then some 2 else none : Dict Nat) k).isSome ∧ ((fun k => if k = "sockets" then some 1 else some 2 : Dict Nat) k).isSome := by
  decide

theorem differing_missing [DecidableEq α] (c m : Dict α) (ks : List String) (k : String) (hk : k ∈ ks) (h : c k = none ∨ m k = none) :
    differing c m ks = .error "KeyError" := by
  induction ks with
  | nil => cases hk
  | cons a ks ih =>
    unfold differing
    by_cases ha : k = a
    · subst ha
      rcases h with h | h
      · rw [h]
      · rw [h]; cases c k <;> rfl
    · have ih := ih ((List.mem_cons.1 hk).resolve_left ha)
      rw [ih]
      cases c a <;> cases m a <;> rfl

/-- C125: without one of the compared entries, in the description or in what is read, there is a KeyError. -/
theorem C125_missing [DecidableEq α] (env : Machine α) (calls : List (Call α)) (machine d : Dict α) (x : α) (hd : env.readouts cpuinfo = .ok d)
    (hx : env.hierarchy true d = .ok x) (k : String) (hk : k ∈ compared) (h : d k = none ∨ machine k = none) :
    (step env (after env {} calls) (.current machine)).1 = .current (.error "KeyError") := by
  have hu := (currentSystem_spec env machine _ (after_inv env {} calls (Inv.init env))).2
  have hne : upd d (hier x) k = d k := by
    have : k ≠ "memory hierarchy" := by
      rintro rfl
      revert hk
      decide
    simp [upd, hier, this]
  have hdiff := differing_missing (upd d (hier x)) machine keys k hk (by rw [hne]; exact h)
  simp only [step, hu, system, hd, hx, hdiff]

/-- C125: the exact condition. If both sides have all entries, the answer is right, also about the memory hierarchy, if and only if that does not
differ or another entry does. -/
theorem C125_right_iff [DecidableEq α] (env : Machine α) (calls : List (Call α)) (machine d : Dict α) (x : α) (hd : env.readouts cpuinfo = .ok d)
    (hx : env.hierarchy true d = .ok x) (hk : ∀ k ∈ compared, (d k).isSome ∧ (machine k).isSome) :
    ∃ same printed, (step env (after env {} calls) (.current machine)).1 = .current (.ok (same, printed)) ∧
      ((same = true ↔ (∀ k ∈ compared, d k = machine k) ∧ machine "memory hierarchy" = some x) ↔
        (machine "memory hierarchy" = some x ∨ ∃ k ∈ compared, d k ≠ machine k)) := by
  obtain ⟨same, printed, h1, h2, _⟩ := C125_same_partial env calls machine d x hd hx hk
  refine ⟨same, printed, h1, ?_⟩
  rw [h2]
  constructor
  · intro h
    by_cases ha : ∀ k ∈ compared, d k = machine k
    · exact Or.inl (h.1 ha).2
    · refine Or.inr (Classical.byContradiction fun hn => ha fun k hk => ?_)
      exact Classical.byContradiction fun hne => hn ⟨k, hk, hne⟩
  · rintro (h | ⟨k, hk, hne⟩)
    · simp [h]
    · constructor
      · intro h; exact absurd (h k hk) hne
      · rintro ⟨h, _⟩; exact absurd (h k hk) hne

/-- C125 does not hold: a machine with other caches is accepted, although its memory hierarchy is read. -/
theorem C125_negation_caches : ∃ (env : Machine Nat) (machine d : Dict Nat) (x : Nat), env.readouts cpuinfo = .ok d ∧ env.hierarchy true d = .ok x ∧
    machine "memory hierarchy" ≠ some x ∧ (currentSystem env machine {}).1 = .ok (true, []) := by
  refine ⟨node, fun k => if k = "memory hierarchy" then some 99 else some 2, _, 12, rfl, rfl, by decide, by rfl⟩

end Verif.Readout
