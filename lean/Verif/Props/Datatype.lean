import Verif.Lemmas.Datatype

/-!
C129: a kernel has one datatype.
-/

namespace Verif.Datatype

variable {δ : Type}

/-- C129: the declarations of a code are accepted exactly if all have the same supported type. Then this is the datatype with its size in bytes, and every variable is
known with its last declaration. -/
theorem C129_declare (ds : List (String × Ty × Option δ)) :
    ((∃ s, declare ds = .ok s) ↔ ∃ t, ∀ d ∈ ds, d.2.1 = t ∧ Supported t) ∧
    ∀ s, declare ds = .ok s →
      (∀ d ∈ ds, s.datatype = some d.2.1 ∧ elementSize s = .ok (bytes d.2.1)) ∧
      (∀ as bs d, ds = as ++ d :: bs → (∀ e ∈ bs, e.1 ≠ d.1) → s.vars.lookup d.1 = some d.2) ∧
      ∀ n, (∀ d ∈ ds, d.1 ≠ n) → s.vars.lookup n = none := by
  obtain ⟨h1, h2⟩ := fold_spec ds {} uniform_init
  unfold declare
  cases hf : ds.foldlM setVariable {} with
  | error e =>
    have h3 : ¬ ∃ s', ds.foldlM setVariable {} = .ok s' := by simp [hf]
    rw [h2] at h3
    refine ⟨?_, by simp⟩
    simp only [reduceCtorEq, exists_false, false_iff, not_exists]
    exact fun t ht => h3 ⟨t, Or.inl rfl, ht⟩
  | ok s =>
    obtain ⟨g1, g2, -, g4⟩ := h1 s hf
    obtain ⟨t, -, ht⟩ := h2.1 ⟨s, hf⟩
    simp only [check_uniform s g1, Except.ok.injEq, exists_eq', true_iff]
    refine ⟨⟨t, ht⟩, ?_⟩
    rintro s' rfl
    refine ⟨fun d hd => ⟨g2 d hd, ?_⟩, fun as bs d h hb => by rw [g4]; exact lookup_fold ds _ as bs d h hb, fun n hn => by rw [g4, lookup_fold_none ds _ n hn]; rfl⟩
    have := ht d hd
    simp only [elementSize, g2 d hd, Option.bind_some, lookup_bytes d.2.1 (this.1 ▸ this.2)]

/-- C129: a description with at least one array is read like the declarations; without one it is rejected. -/
theorem C129_describe (ds : List (String × Ty × Option δ)) : describe ds = if ds = [] then .error "IndexError" else declare ds := describe_eq ds

def sampleDecls : List (String × Ty × Option Nat) := [("a", ["double"], some 100), ("b", ["double"], some 100), ("s", ["double"], none)]

example : ∃ t, ∀ d ∈ sampleDecls, d.2.1 = t ∧ Supported t :=
  ⟨["double"], by simp [sampleDecls, Supported]⟩

example : (declare sampleDecls).map (fun s => (s.datatype, s.vars.lookup "b")) = .ok (some ["double"], some (["double"], some 100)) := by decide +kernel

/-- C129, partial: the peak performance is that of single precision for numbers of single precision. Missing: double precision (`C129_negation_precision`). -/
theorem C129_precision_partial (t : Ty) (h : "double" ∉ t) : precision t = precisionOf t := by
  simp [precision, precisionOf, h]

example : Supported ["float", "_Complex"] ∧ "double" ∉ (["float", "_Complex"] : Ty) := ⟨⟨"float", by simp⟩, by decide⟩

/-- C129: the exact condition. The right peak performance is taken if and only if the type is not a double. -/
theorem C129_precision_iff (t : Ty) : precision t = precisionOf t ↔ "double" ∉ t := by
  by_cases h : "double" ∈ t <;> simp [precision, precisionOf, h]

example : precision ["double", "_Complex"] ≠ precisionOf ["double", "_Complex"] := fun h => (C129_precision_iff _).1 h (by simp)

/-- C129 does not hold: for kernels with double precision the peak performance of single precision is taken. -/
theorem C129_negation_precision : Supported ["double"] ∧ precisionOf ["double"] = "DP" ∧ precision ["double"] = "SP" :=
  ⟨⟨"double", by simp⟩, by decide, by decide⟩

end Verif.Datatype
