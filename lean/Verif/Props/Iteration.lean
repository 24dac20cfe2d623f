import Verif.Lemmas.Iteration

/-!
Properties C05-C07 (iteration arithmetic of `kerncraft/kernel.py`).
The specification is `Verif.Spec.Loops`: `cNest loops` is the list of index tuples in the order in
which the C loop nest executes its innermost body.
-/

namespace Verif.Iteration

/-- C05 hypothesis: every loop has increment 1 and runs at least once. -/
def UnitNest (loops : List Loop) : Prop := ∀ l ∈ loops, l.incr = 1 ∧ l.start < l.stop

/-- `for (j = 2; j < 5; ++j) for (i = 1; i < 4; ++i)` -/
def exNest : List Loop := [⟨2, 5, 1⟩, ⟨1, 4, 1⟩]

theorem exNest_unit : UnitNest exNest := by
  intro l hl; simp [exNest] at hl; rcases hl with rfl | rfl <;> decide

/-! ## C05 -/

/-- C05: the indices computed for global iteration `n` are those of the `n`-th executed iteration. -/
theorem C05_indices_match_execution (loops : List Loop) (h : UnitNest loops) (n : Nat)
    (hn : n < (cNest loops).length) :
    globalIteratorToIndices loops n = some (cNest loops)[n] := by
  rw [globalIteratorToIndices_eq loops n h, Nat.mod_eq_of_lt hn, List.getElem?_eq_getElem hn]

/-- C05: the global iteration number of the `n`-th executed iteration is `n`. -/
theorem C05_global_iterator_counts_execution (loops : List Loop) (h : UnitNest loops) (n : Nat)
    (hn : n < (cNest loops).length) :
    indicesToGlobalIterator loops (cNest loops)[n] = some (n : Int) :=
  indicesToGlobalIterator_eq loops n _ h (List.getElem?_eq_getElem hn)

/-- C05: iteration number → indices → iteration number is the identity. -/
theorem C05_roundtrip_iteration (loops : List Loop) (h : UnitNest loops) (n : Int) (h0 : 0 ≤ n)
    (total : Int) (ht : iterationLength loops = some total) (hn : n < total) :
    (globalIteratorToIndices loops n).bind (indicesToGlobalIterator loops) = some n := by
  have hl : iterationLength loops = some ((cNest loops).length : Int) := by
    unfold iterationLength
    rw [iterationLengthFrom_eq _ _ (by
      intro l hl
      have := h l (by simpa using hl)
      rw [this.1]; exact ⟨by decide, by omega⟩), tripProd_reverse, tripProd_eq, one_mul]
  rw [hl] at ht
  obtain ⟨k, rfl⟩ := Int.eq_ofNat_of_zero_le h0
  have hk : k < (cNest loops).length := by simp at ht; omega
  rw [C05_indices_match_execution loops h k hk, Option.bind_some]
  exact C05_global_iterator_counts_execution loops h k hk

/-- C05: indices → iteration number → indices is the identity, and the iteration number is in range. -/
theorem C05_roundtrip_indices (loops : List Loop) (h : UnitNest loops) (t : List Int)
    (ht : List.Forall₂ (fun (l : Loop) i => l.start ≤ i ∧ i < l.stop) loops t) :
    ∃ n : Nat, indicesToGlobalIterator loops t = some (n : Int) ∧
      iterationLength loops = some ((cNest loops).length : Int) ∧ n < (cNest loops).length ∧
      globalIteratorToIndices loops n = some t := by
  have hm := (mem_cNest_unit loops t h).2 ht
  obtain ⟨n, hn, rfl⟩ := List.getElem_of_mem hm
  refine ⟨n, C05_global_iterator_counts_execution loops h n hn, ?_, hn,
    C05_indices_match_execution loops h n hn⟩
  unfold iterationLength
  rw [iterationLengthFrom_eq _ _ (by
    intro l hl
    have := h l (by simpa using hl)
    rw [this.1]; exact ⟨by decide, by omega⟩), tripProd_reverse, tripProd_eq, one_mul]

/-- C05: the last iteration number is the iteration count minus one. -/
theorem C05_max_iteration (loops : List Loop) (h : UnitNest loops) :
    maxGlobalIteration loops = (iterationLength loops).map (fun n => n - 1) := by
  have hl : iterationLength loops = some ((cNest loops).length : Int) := by
    unfold iterationLength
    rw [iterationLengthFrom_eq _ _ (by
      intro l hl
      have := h l (by simpa using hl)
      rw [this.1]; exact ⟨by decide, by omega⟩), tripProd_reverse, tripProd_eq, one_mul]
  rw [hl]
  clear hl
  unfold maxGlobalIteration
  induction loops with
  | nil => simp [indicesToGlobalIterator, windFrom, cNest]
  | cons l ls ih =>
    rw [List.map_cons, indicesToGlobalIterator_cons l ls _ _ h (by simp),
      ih (fun x hx => h x (by simp [hx]))]
    have hl := h l (by simp)
    have h1 := length_cLoop l.start l.stop l.incr (by rw [hl.1]; decide) hl.2.le
    rw [length_cNest_cons]
    simp only [Option.map_some, Option.some.injEq]
    push_cast
    rw [h1, hl.1]
    simp
    ring

example : globalIteratorToIndices exNest 4 = some [3, 2] := by decide
example : indicesToGlobalIterator exNest [3, 2] = some 4 := by decide
example : List.Forall₂ (fun (l : Loop) i => l.start ≤ i ∧ i < l.stop) exNest [3, 2] := by
  simp [exNest]
example : iterationLength exNest = some 9 := by decide
example : maxGlobalIteration exNest = some 8 := by decide

/-! ## C06 -/

/-- C06 full claim (single loop): iteration `k` has index `start + k * incr`. -/
def C06_claim : Prop :=
  ∀ (l : Loop), 0 < l.incr → ∀ k : Nat, l.start + k * l.incr < l.stop →
    globalIteratorToIndices [l] k = some [l.start + k * l.incr]

/-- C06 is false: `for (i = 0; i < 10; i += 2)` gives 0, 2, 4, 1, 3. -/
theorem C06_negation : ¬ C06_claim := by
  intro h
  have := h ⟨0, 10, 2⟩ (by decide) 3 (by decide)
  revert this
  decide

/-- C06: the inverse direction is wrong as well for increments above one: the second iteration of
`for (i = 0; i < 10; i += 2)` (index 2) is given number 2. -/
theorem C06_negation_inverse :
    ¬ ∀ (l : Loop), 0 < l.incr → ∀ k : Nat, l.start + k * l.incr < l.stop →
      indicesToGlobalIterator [l] [l.start + k * l.incr] = some (k : Int) := by
  intro h
  have := h ⟨0, 10, 2⟩ (by decide) 1 (by decide)
  revert this
  decide

/-- C06 partial: in a nest with unit-stride inner loops and an arbitrary positive increment of the
outermost loop, the indices are right as long as `q * incr` stays below the trip count of the
outermost loop, where `q` is the executed outer iteration.
Missing: later iterations, for which the claim is false. -/
theorem C06_first_iterations_partial (l : Loop) (ls : List Loop) (hi : 0 < l.incr)
    (hls : UnitNest ls) (q r : Nat) (hr : r < (cNest ls).length)
    (hq : (q : Int) * l.incr < (cLoop l.start l.stop l.incr).length) :
    globalIteratorToIndices (l :: ls) ((q * (cNest ls).length + r : Nat) : Int)
      = some ((l.start + q * l.incr) :: (cNest ls)[r]) := by
  have hpos : 0 < (cLoop l.start l.stop l.incr).length := by
    have : 0 ≤ (q : Int) * l.incr := by positivity
    omega
  have hlt : l.start < l.stop := by
    by_contra hc
    rw [cLoop, if_neg (by omega)] at hpos
    simp at hpos
  have hlen : l.length = some ((cLoop l.start l.stop l.incr).length : Int) := by
    unfold Loop.length intCeil
    rw [if_neg hi.ne', length_cLoop _ _ _ hi hlt.le]
  have hmod : (q * (cNest ls).length + r) % (cNest ls).length = r := by
    rw [Nat.mul_add_mod_self_right, Nat.mod_eq_of_lt hr]
  rw [globalIteratorToIndices_cons' l ls _ _ hls hlen (by omega),
    globalIteratorToIndices_eq ls _ hls, hmod, List.getElem?_eq_getElem hr]
  have hN : 0 < (cNest ls).length := by omega
  have hd : (((q * (cNest ls).length + r : Nat) : Int)).fdiv ((cNest ls).length : Int) = q := by
    rw [Int.fdiv_eq_ediv_of_nonneg _ (by omega)]
    have : (q * (cNest ls).length + r) / (cNest ls).length = q := by
      rw [mul_comm, Nat.mul_add_div hN, Nat.div_eq_of_lt hr, add_zero]
    exact_mod_cast this
  rw [hd, Int.fmod_eq_emod_of_nonneg _ (by omega), Int.emod_eq_of_lt (by positivity) hq]
  simp

example : globalIteratorToIndices [⟨0, 20, 2⟩, ⟨1, 4, 1⟩] 13 = some [8, 2] := by decide
example : ((4 : Nat) : Int) * (2 : Int) < (cLoop 0 20 2).length := by
  have := length_cLoop 0 20 2 (by decide) (by decide); rw [this]; decide

/-! ## C07 -/

/-- C07 full claim: the reported iteration length is the number of body executions. -/
def C07_claim : Prop :=
  ∀ loops : List Loop, (∀ l ∈ loops, 0 < l.incr) →
    iterationLength loops = some ((cNest loops).length : Int)

/-- C07 is false for loops whose end lies well below their start: `for (i = 5; i < 0; ++i)` executes
nothing, the code reports -5 iterations. -/
theorem C07_negation : ¬ C07_claim := by
  intro h
  have h1 := h [⟨5, 0, 1⟩] (by decide)
  have h2 : cNest [⟨5, 0, 1⟩] = [] := by
    rw [cNest, cLoop]; rfl
  rw [h2] at h1
  revert h1
  decide

/-- C07: two such loops are even reported as a positive number of iterations. -/
theorem C07_negation_positive :
    iterationLength [⟨5, 0, 1⟩, ⟨5, 0, 1⟩] = some 25 ∧ cNest [⟨5, 0, 1⟩, ⟨5, 0, 1⟩] = [] := by
  refine ⟨by decide, ?_⟩
  rw [cNest, cLoop]; rfl

/-- C07 partial: the length is exact if no loop ends at or below `start - incr`.
Missing: loops whose end is further below their start, for which the claim is false. -/
theorem C07_iteration_length_partial (loops : List Loop)
    (h : ∀ l ∈ loops, 0 < l.incr ∧ l.start - l.incr < l.stop) :
    iterationLength loops = some ((cNest loops).length : Int) := by
  unfold iterationLength
  rw [iterationLengthFrom_eq _ _ (by intro l hl; exact h l (by simpa using hl)), tripProd_reverse,
    tripProd_eq, one_mul]

example : iterationLength [⟨0, 10, 3⟩, ⟨1, 4, 1⟩] = some 12 := by decide
example : ∀ l ∈ [(⟨0, 10, 3⟩ : Loop), ⟨1, 4, 1⟩], 0 < l.incr ∧ l.start - l.incr < l.stop := by decide

/-- C07: the length of a single loop dimension (negative positions count from the innermost loop). -/
theorem C07_dimension_length_partial (loops : List Loop)
    (h : ∀ l ∈ loops, 0 < l.incr ∧ l.start - l.incr < l.stop) (k : Nat) (hk : k < loops.length) :
    iterationLengthDim loops k = some ((cLoop loops[k].start loops[k].stop loops[k].incr).length : Int)
    ∧ iterationLengthDim loops (k - loops.length) =
      some ((cLoop loops[k].start loops[k].stop loops[k].incr).length : Int) := by
  have hl := h loops[k] (List.getElem_mem hk)
  have key : iterationLengthFrom 1 [loops[k]] =
      some ((cLoop loops[k].start loops[k].stop loops[k].incr).length : Int) := by
    rw [iterationLengthFrom_eq _ _ (by simpa using hl)]
    simp [tripProd]
  constructor
  · unfold iterationLengthDim
    have h0 : ¬ ((k : Int) < 0) := by omega
    simp [List.getElem?_eq_getElem hk, key, h0]
  · unfold iterationLengthDim
    have h1 : ((k : Int) - loops.length) < 0 := by omega
    simp only [h1, if_true]
    have h2 : (k : Int) - loops.length + loops.length = k := by omega
    rw [h2]
    simp [List.getElem?_eq_getElem hk, key]

/-- C07: an increment of zero is never given a length. -/
theorem C07_zero_increment_rejected (loops : List Loop) (l : Loop) (hl : l ∈ loops)
    (h0 : l.incr = 0) : iterationLength loops = none := by
  unfold iterationLength
  have hm : l ∈ loops.reverse := by simpa using hl
  generalize loops.reverse = ls at hm
  generalize (1 : Int) = T
  induction ls generalizing T with
  | nil => simp at hm
  | cons a ls ih =>
    rw [iterationLengthFrom]
    rcases List.mem_cons.1 hm with rfl | hm
    · simp [Loop.length, intCeil, h0]
    · cases a.length with
      | none => simp
      | some n => simp [ih hm]

example : iterationLength [⟨0, 10, 1⟩, ⟨0, 10, 0⟩] = none :=
  C07_zero_increment_rejected _ ⟨0, 10, 0⟩ (by simp) rfl

/-- C07: compiling offsets for iterations beyond the iteration count, or for no iteration at all, is
rejected; otherwise all requested iterations lie below the iteration count. -/
theorem C07_requested_iterations_checked (loops : List Loop) (iters : List Int) :
    checkIterations loops iters = .ok () →
      iters ≠ [] ∧ ∃ n, iterationLength loops = some n ∧ ∀ i ∈ iters, i < n := by
  intro h
  unfold checkIterations at h
  split at h
  · simp at h
  · rename_i m hm
    split at h
    · simp at h
    · rename_i n hn
      split at h
      · rename_i hlt
        refine ⟨by rintro rfl; simp at hm, n, hn, fun i hi => ?_⟩
        rw [List.max?_eq_some_iff] at hm
        exact lt_of_le_of_lt (hm.2 i hi) hlt
      · simp at h

example : checkIterations exNest [0, 3, 8] = .ok () := by decide

/-- C07, exactly: the requested iterations are accepted just if there is one, the iteration count is known, and all of them lie
below it. -/
theorem C07_requested_iterations_iff (loops : List Loop) (iters : List Int) :
    checkIterations loops iters = .ok () ↔
      iters ≠ [] ∧ ∃ n, iterationLength loops = some n ∧ ∀ i ∈ iters, i < n := by
  refine ⟨C07_requested_iterations_checked loops iters, ?_⟩
  rintro ⟨hne, n, hn, hlt⟩
  unfold checkIterations
  cases hm : iters.max? with
  | none => exact absurd (List.max?_eq_none_iff.1 hm) hne
  | some m => simp [hn, hlt m (List.max?_eq_some_iff.1 hm).1]

/-- The last iteration of the nest is accepted. -/
example : iterationLength exNest = some 9 ∧ checkIterations exNest [8] = .ok () := by decide

/-! ## C06 and C07 exactly -/

/-- C06, exactly: with unit-stride inner loops, an executed iteration is given its indices if and only if `q * incr` is below the
trip count of the outermost loop. -/
theorem C06_iteration_iff (l : Loop) (ls : List Loop) (hi : 0 < l.incr) (hls : UnitNest ls) (q r : Nat) (hr : r < (cNest ls).length)
    (hq : q < (cLoop l.start l.stop l.incr).length) :
    globalIteratorToIndices (l :: ls) ((q * (cNest ls).length + r : Nat) : Int) = some ((l.start + q * l.incr) :: (cNest ls)[r]) ↔
      (q : Int) * l.incr < (cLoop l.start l.stop l.incr).length := by
  refine ⟨fun h => ?_, C06_first_iterations_partial l ls hi hls q r hr⟩
  have hlt : l.start < l.stop := by
    by_contra hc
    rw [cLoop, if_neg (by omega)] at hq
    simp at hq
  have hlen : l.length = some ((cLoop l.start l.stop l.incr).length : Int) := by
    unfold Loop.length intCeil
    rw [if_neg hi.ne', length_cLoop _ _ _ hi hlt.le]
  have hmod : (q * (cNest ls).length + r) % (cNest ls).length = r := by
    rw [Nat.mul_add_mod_self_right, Nat.mod_eq_of_lt hr]
  rw [globalIteratorToIndices_cons' l ls _ _ hls hlen (by omega),
    globalIteratorToIndices_eq ls _ hls, hmod, List.getElem?_eq_getElem hr] at h
  have hN : 0 < (cNest ls).length := by omega
  have hd : (((q * (cNest ls).length + r : Nat) : Int)).fdiv ((cNest ls).length : Int) = q := by
    rw [Int.fdiv_eq_ediv_of_nonneg _ (by omega)]
    have : (q * (cNest ls).length + r) / (cNest ls).length = q := by
      rw [mul_comm, Nat.mul_add_div hN, Nat.div_eq_of_lt hr, add_zero]
    exact_mod_cast this
  rw [hd, Int.fmod_eq_emod_of_nonneg _ (by omega)] at h
  simp only [Option.map_some, Option.some.injEq, List.cons.injEq, and_true] at h
  have := Int.emod_lt_of_pos ((q : Int) * l.incr) (b := ((cLoop l.start l.stop l.incr).length : Int)) (by omega)
  omega

/-- C06, exactly: with unit-stride inner loops, all iterations are given their indices if and only if the increment is one or
the loop has one iteration only. -/
theorem C06_loop_iff (l : Loop) (ls : List Loop) (hi : 0 < l.incr) (hls : UnitNest ls) (hN : 0 < (cNest ls).length) :
    (∀ (q r : Nat) (hr : r < (cNest ls).length), q < (cLoop l.start l.stop l.incr).length →
      globalIteratorToIndices (l :: ls) ((q * (cNest ls).length + r : Nat) : Int) = some ((l.start + q * l.incr) :: (cNest ls)[r])) ↔
      l.incr = 1 ∨ (cLoop l.start l.stop l.incr).length ≤ 1 := by
  constructor
  · intro h
    by_contra hc
    push Not at hc
    obtain ⟨h1, h2⟩ := hc
    have h3 := (C06_iteration_iff l ls hi hls ((cLoop l.start l.stop l.incr).length - 1) 0 hN (by omega)).1 (h _ 0 hN (by omega))
    have h4 : (2 : Int) ≤ l.incr := by omega
    have h5 : (((cLoop l.start l.stop l.incr).length - 1 : Nat) : Int) * 2 ≤ (((cLoop l.start l.stop l.incr).length - 1 : Nat) : Int) * l.incr :=
      mul_le_mul_of_nonneg_left h4 (by omega)
    omega
  · intro h q r hr hq
    refine (C06_iteration_iff l ls hi hls q r hr hq).2 ?_
    rcases h with h | h
    · have : (q : Int) * l.incr = q := by rw [h, mul_one]
      omega
    · have : q = 0 := by omega
      subst this
      simp only [Nat.cast_zero, zero_mul]
      omega

/-- C06, exactly: the other direction is right for the first iteration and for unit increments only. -/
theorem C06_inverse_iff (l : Loop) (hi : 0 < l.incr) (k : Nat) :
    indicesToGlobalIterator [l] [l.start + k * l.incr] = some (k : Int) ↔ k = 0 ∨ l.incr = 1 := by
  have hlen : ∃ n, l.length = some n := ⟨_, by unfold Loop.length intCeil; rw [if_neg hi.ne']⟩
  obtain ⟨n, hn⟩ := hlen
  have : indicesToGlobalIterator [l] [l.start + k * l.incr] = some (k * l.incr) := by
    simp [indicesToGlobalIterator, windFrom, hn]
  rw [this, Option.some.injEq]
  constructor
  · intro h
    have h1 : (k : Int) * (l.incr - 1) = 0 := by linarith
    rcases mul_eq_zero.1 h1 with h2 | h2
    · left; omega
    · right; omega
  · rintro (rfl | h)
    · simp
    · rw [h, mul_one]

example : ¬ ∀ (q r : Nat) (hr : r < (cNest [⟨1, 4, 1⟩]).length), q < (cLoop 0 20 2).length →
    globalIteratorToIndices [⟨0, 20, 2⟩, ⟨1, 4, 1⟩] ((q * (cNest [⟨1, 4, 1⟩]).length + r : Nat) : Int) = some (((0 : Int) + q * 2) :: (cNest [⟨1, 4, 1⟩])[r]) := by
  have h1 : (cNest [⟨1, 4, 1⟩]).length = 3 := by
    have := C07_iteration_length_partial [⟨1, 4, 1⟩] (by decide)
    have h2 : iterationLength [⟨1, 4, 1⟩] = some 3 := by decide
    rw [h2] at this
    have := Option.some.inj this
    omega
  intro h
  rcases (C06_loop_iff ⟨0, 20, 2⟩ [⟨1, 4, 1⟩] (by decide) (by simp [UnitNest]) (by omega)).1 h with h2 | h2
  · revert h2; decide
  · have := length_cLoop 0 20 2 (by decide) (by decide)
    simp only at h2
    have h3 : (-(-(20 - 0 : Int)).fdiv 2) = 10 := by decide
    omega

/-- C07, exactly: the length of a single loop is the number of its iterations if and only if it does not end at or below
`start - incr`. -/
theorem C07_single_iff (l : Loop) (hi : 0 < l.incr) :
    iterationLength [l] = some ((cNest [l]).length : Int) ↔ l.start - l.incr < l.stop := by
  refine ⟨fun h => ?_, fun h => C07_iteration_length_partial [l] (by simpa using ⟨hi, h⟩)⟩
  by_contra hc
  have h1 : cNest [l] = [] := by
    rw [cNest, cLoop, if_neg (by omega)]
    rfl
  have h2 : l.length = some (-((-(l.stop - l.start)).fdiv l.incr)) := by
    unfold Loop.length intCeil
    rw [if_neg hi.ne']
  rw [h1] at h
  simp only [iterationLength, List.reverse_singleton, iterationLengthFrom, h2, Option.bind_eq_bind, Option.bind_some, one_mul,
    List.length_nil, Nat.cast_zero, Option.some.injEq] at h
  have h3 : (1 : Int) ≤ (-(l.stop - l.start)).fdiv l.incr := by
    rw [Int.fdiv_eq_ediv_of_nonneg _ hi.le]
    exact (Int.le_ediv_iff_mul_le hi).2 (by omega)
  omega

example : iterationLength [⟨5, 5, 3⟩] = some ((cNest [⟨5, 5, 3⟩]).length : Int) := (C07_single_iff ⟨5, 5, 3⟩ (by decide)).2 (by decide)

end Verif.Iteration
