import Verif.Lemmas.Split

/-!
C85: splitting linear positions into subscripts again.
-/

namespace Verif.Split

open Verif.Spec

/-- C85: if a position is split, the parts describe the same element, whatever the values of the symbols are. -/
theorem C85_same_element (dims : List Term) (subs cs : List Poly) (hlen : subs.length = dims.length)
    (h : split dims subs = some cs) (σ : String → Int) :
    cs.length = dims.length ∧
    cIndex (dims.map (termValue σ)) (cs.map (sumValue σ)) = cIndex (dims.map (termValue σ)) (subs.map (sumValue σ)) := by
  unfold split at h
  simp only at h
  split at h
  · rename_i hf
    have hcs : coefficients (factors dims) (expand (factors dims) subs) = cs := by simpa using h
    rw [hcs] at hf
    have hl : cs.length = dims.length := by rw [← hcs, length_coefficients, length_factors]
    refine ⟨hl, ?_⟩
    rw [← total_factors σ dims cs hl, ← total_factors σ dims subs hlen, ← formValue_form, ← formValue_form, hf]
  · cases h

/-- C85, partial: if the extents are symbols and the subscripts loop counters plus literals, the parts are the subscripts.
Missing: literal extents (`C85_negation_literals`) and other subscripts (`C85_negation_rejected`). -/
theorem C85_subscripts_partial (names : List String) (ls : List (Option String × Int)) (hlen : ls.length = names.length)
    (hc : ∀ x ∈ ls, ∀ c, x.1 = some c → c ∉ names) :
    split (names.map symbol) (ls.map fun x => counterPlus x.1 x.2) = some (ls.map fun x => counterPlus x.1 x.2) :=
  split_symbols names ls hlen hc

/-- `a[k-1][j+2][i]` in an array of N*N*N elements. -/
example : split [symbol "N", symbol "N", symbol "N"]
      [counterPlus (some "k") (-1), counterPlus (some "j") 2, counterPlus (some "i") 0] =
    some [[(1, {"k"}), (-1, 0)], [(1, {"j"}), (2, 0)], [(1, {"i"})]] := by decide +kernel

/-- C85, negation: with literal extents the parts differ from the subscripts. In `double a[50][100]`, `a[j+1][i+1]` is
split into `j` and `i+101`, `a[j+1][i]` into `j+1` and `i`; the first part of the former is always smaller, its position
always larger, so that sorting by parts gives a negative distance. -/
theorem C85_negation_literals :
    ∃ dims s t cs ct, split dims s = some cs ∧ split dims t = some ct ∧ cs ≠ s ∧ ct = t ∧
      ∀ σ : String → Int, cs.head?.map (sumValue σ) < ct.head?.map (sumValue σ) ∧
        cIndex (dims.map (termValue σ)) (ct.map (sumValue σ)) < cIndex (dims.map (termValue σ)) (cs.map (sumValue σ)) := by
  refine ⟨[(50, 0), (100, 0)], [[(1, {"j"}), (1, 0)], [(1, {"i"}), (1, 0)]], [[(1, {"j"}), (1, 0)], [(1, {"i"})]],
    [[(1, {"j"})], [(101, 0), (1, {"i"})]], [[(1, {"j"}), (1, 0)], [(1, {"i"})]], by decide +kernel, by decide +kernel,
    by decide +kernel, rfl, fun σ => ⟨?_, ?_⟩⟩
  · simp [sumValue, termValue]
  · simp [sumValue, termValue, cIndex, cElems]
    omega

/-- C85, negation: subscripts with a multiple of a counter in the last dimension, or with an extent, are rejected:
`a[j][2*i]` and `a[j][i+N]` in an array of M*N elements. -/
theorem C85_negation_rejected :
    split [symbol "M", symbol "N"] [[(1, {"j"})], [(2, {"i"})]] = none ∧
    split [symbol "M", symbol "N"] [[(1, {"j"})], [(1, {"i"}), (1, {"N"})]] = none := by
  constructor <;> decide +kernel

end Verif.Split
