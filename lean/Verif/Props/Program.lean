import Verif.Lemmas.Program
import Verif.Props.ParallelInit

/-!
C153: Generated programs give the same results whenever they are generated and run.
-/

namespace Verif.Parallel

open Verif.CodeGen

/-- C153: scalars and accessed elements are, at the end of the program, what the loop nest leaves from initial values that do not depend
on anything else, executed twice and then as often as requested. -/
def C153Claim : Prop :=
  ∀ (g : Random Nat Int) (items : List Item) (threads : Nat) (iters : List (List (Assign Name Int))) (initParts : List (List (List (Assign Name Int))))
    (parts : Nat → List (List (List (Assign Name Int)))) (before : Nat) (timePer : ℚ) (repetitions : Nat) (env : MainRun.Env) (fuel : Nat)
    (orders : List (List Nat)) (m m' : Loc → Int) (start : Name → Int),
    repetitions < 2 ^ 31 → (scalarNames items).Nodup → Shares iters initParts → (∀ n, (parts n).length = threads ∧ Shares iters (parts n)) →
    (∀ i ∈ iters, ∀ a ∈ i, Declared (scalarNames items) a) → Starts (sequence g.uniform (g.seed 2342)) (scalarNames items) iters start →
    program g items threads initParts parts before (MainRun.repText timePer repetitions) env fuel orders m = some m' →
    (∀ s ∈ scalarNames items, m' (.main s) = repeated iters (2 + repetitions) start (.scalar s)) ∧
      ∀ b k, Accessed iters b k → m' (.elem b k) = repeated iters (2 + repetitions) start (.elem b k)

variable {S V : Type}

theorem stateAfter_sequence (g : Random S V) (n : Nat) : ∀ s : S, (g.uniform (stateAfter g s n)).1 = sequence g.uniform s n := by
  induction n with
  | zero => intro s; rfl
  | succ n ih => intro s; exact ih _

/-- C153: initial values are always the first numbers of the generator for one seed, whatever its state was before. -/
theorem C153_values (g : Random S V) (items : List Item) (before : S) (m : Loc → V) (hn : (scalarNames items).Nodup) :
    (∀ (i : Nat) (s : String), (scalarNames items)[i]? = some s →
      declareScalars (scalarValues g items before).1 m (.main s) = sequence g.uniform (g.seed 2342) i) ∧
    (∀ s, s ∉ scalarNames items → declareScalars (scalarValues g items before).1 m (.main s) = m (.main s)) ∧
    elementValue g items before = sequence g.uniform (g.seed 2342) (scalarNames items).length := by
  obtain ⟨h1, h2, h3⟩ := drawAll_spec g (scalarNames items) (g.seed 2342)
  refine ⟨fun i s hi => ?_, fun s hs => ?_, ?_⟩
  · rw [← stateAfter_sequence]
    exact declareScalars_get _ m i s _ (by rw [scalarValues, h2]; exact hn) (h3 i s hi)
  · refine declareScalars_other _ _ m ?_
    rw [scalarValues, h2]
    rintro x hx e
    cases e
    exact hs hx
  · rw [← stateAfter_sequence, elementValue, scalarValues, h1]

variable [Inhabited V]

/-- The memory when the kernel function is called for the first time. -/
theorem starts_region (g : Random S V) (items : List Item) (threads : Nat) (iters : List (List (Assign Name V)))
    (initParts : List (List (List (Assign Name V)))) (calls : List (List (List (List (Assign Name V))))) (before : S) (orders : List (List Nat))
    (m m' : Loc → V) (hn : (scalarNames items).Nodup) (hi : Shares iters initParts)
    (h : region (elementValue g items before) items threads initParts calls orders (declareScalars (scalarValues g items before).1 m) = some m') :
    ∃ os m1, parallel items threads calls os m1 = some m' ∧ Starts (sequence g.uniform (g.seed 2342)) (scalarNames items) iters (visible m1) := by
  obtain ⟨v1, -, v3⟩ := C153_values g items before m hn
  unfold region at h
  cases orders with
  | nil => cases h
  | cons o os =>
    simp only [runPhases] at h
    cases hp : phase o (initPhase (elementValue g items before) initParts) (declareScalars (scalarValues g items before).1 m) with
    | none => rw [hp] at h; cases h
    | some m1 =>
      rw [hp, Option.bind_some] at h
      obtain ⟨a1, -, a3⟩ := C152_initialised _ iters initParts o _ m1 hi hp
      refine ⟨os, m1, h, ⟨fun i s hs => ?_, fun b k hb => ?_⟩⟩
      · rw [← v1 i s hs]; exact (a3 s).1
      · rw [← v3]; exact a1 b k hb

/-- C153, part: for kernels with independent outer iterations that do not write scalars, any number of threads: scalars and accessed
elements are what the loop nest leaves from the initial values, executed twice and then as often as requested. Missing: kernels with
races, see the negation. -/
theorem C153_threads_partial (g : Random S V) (items : List Item) (threads : Nat) (iters : List (List (Assign Name V)))
    (initParts : List (List (List (Assign Name V)))) (parts : Nat → List (List (List (Assign Name V)))) (before : S) (timePer : ℚ)
    (repetitions : Nat) (env : MainRun.Env) (fuel : Nat) (orders : List (List Nat)) (m m' : Loc → V) (start : Name → V)
    (hrep : repetitions < 2 ^ 31) (hn : (scalarNames items).Nodup) (hi : Shares iters initParts)
    (hp : ∀ n, (parts n).length = threads ∧ Shares iters (parts n)) (hind : iters.Pairwise Independent)
    (hk : ∀ i ∈ iters, ∀ a ∈ i, KeepsScalars (scalarNames items) a)
    (hs : Starts (sequence g.uniform (g.seed 2342)) (scalarNames items) iters start)
    (h : program g items threads initParts parts before (MainRun.repText timePer repetitions) env fuel orders m = some m') :
    (∀ s ∈ scalarNames items, m' (.main s) = repeated iters (2 + repetitions) start (.scalar s)) ∧
      ∀ b k, Accessed iters b k → m' (.elem b k) = repeated iters (2 + repetitions) start (.elem b k) := by
  have h1 := program_eq g items threads initParts parts before _ env fuel orders m m' h
  rw [MainRun.atoi_rep timePer repetitions hrep, Int.toNat_natCast] at h1
  obtain ⟨os, m1, h2, h3⟩ := starts_region g items threads iters initParts _ before orders m m' hn hi h1
  have h4 := C151_independent_partial items threads iters _ os m1 m' hind hk (by
    intro ps hps
    obtain ⟨n, -, rfl⟩ := List.mem_map.1 hps
    exact hp n) h2
  rw [List.length_map, List.length_range] at h4
  have h5 := repeated_congr (fun q => match q with | .scalar s => s ∈ scalarNames items | .elem b k => Accessed iters b k) iters (by
    intro i hi a ha q hq
    cases q with
    | scalar s => exact (hk i hi a ha).2 s hq
    | elem b k => exact ⟨i, hi, a, ha, List.mem_cons_of_mem _ hq⟩) (2 + repetitions) (visible m1) start (by
    intro q hq
    cases q with
    | scalar s =>
      obtain ⟨j, hj⟩ := List.mem_iff_getElem?.1 hq
      rw [h3.scalar j s hj, hs.scalar j s hj]
    | elem b k => rw [h3.elem b k hq, hs.elem b k hq])
  exact ⟨fun s hs => (congrFun h4 (.scalar s)).trans (h5 (.scalar s) hs), fun b k hb => (congrFun h4 (.elem b k)).trans (h5 (.elem b k) hb)⟩

/-- C153, part: for all kernels with one thread. -/
theorem C153_one_thread_partial (g : Random S V) (items : List Item) (iters : List (List (Assign Name V))) (before : S) (timePer : ℚ)
    (repetitions : Nat) (env : MainRun.Env) (fuel : Nat) (orders : List (List Nat)) (m m' : Loc → V) (start : Name → V)
    (hrep : repetitions < 2 ^ 31) (hn : (scalarNames items).Nodup) (hd : ∀ i ∈ iters, ∀ a ∈ i, Declared (scalarNames items) a)
    (hs : Starts (sequence g.uniform (g.seed 2342)) (scalarNames items) iters start)
    (h : program g items 1 [iters] (fun _ => [iters]) before (MainRun.repText timePer repetitions) env fuel orders m = some m') :
    (∀ s ∈ scalarNames items, m' (.main s) = repeated iters (2 + repetitions) start (.scalar s)) ∧
      ∀ b k, Accessed iters b k → m' (.elem b k) = repeated iters (2 + repetitions) start (.elem b k) := by
  have h1 := program_eq g items 1 _ _ before _ env fuel orders m m' h
  rw [MainRun.atoi_rep timePer repetitions hrep, Int.toNat_natCast] at h1
  obtain ⟨os, m1, h2, h3⟩ := starts_region g items 1 iters [iters] _ before orders m m' hn (by simp [Shares]) h1
  rw [show (List.range (2 + repetitions)).map (fun _ => [iters]) = List.replicate (2 + repetitions) [iters] by simp] at h2
  have h4 := C151_one_thread_partial items iters _ os m1 m' hd h2
  have h5 := repeated_congr (fun q => match q with | .scalar s => s ∈ scalarNames items | .elem b k => Accessed iters b k) iters (by
    intro i hi a ha q hq
    cases q with
    | scalar s => exact hd i hi a ha s (List.mem_cons_of_mem _ hq)
    | elem b k => exact ⟨i, hi, a, ha, List.mem_cons_of_mem _ hq⟩) (2 + repetitions) (visible m1) start (by
    intro q hq
    cases q with
    | scalar s =>
      obtain ⟨j, hj⟩ := List.mem_iff_getElem?.1 hq
      rw [h3.scalar j s hj, hs.scalar j s hj]
    | elem b k => rw [h3.elem b k hq, hs.elem b k hq])
  exact ⟨fun s hs => (congrFun h4 (.scalar s)).trans (h5 (.scalar s) hs), fun b k hb => (congrFun h4 (.elem b k)).trans (h5 (.elem b k) hb)⟩

omit [Inhabited V] in
/-- The initial memory of the claim exists. -/
theorem starts_exists (numbers : Nat → V) (scalars : List String) (iters : List (List (Assign Name V))) (hn : scalars.Nodup) :
    ∃ start, Starts numbers scalars iters start := by
  refine ⟨fun | .scalar s => numbers (scalars.idxOf s) | .elem _ _ => numbers scalars.length, ⟨fun i s h => ?_, fun _ _ _ => rfl⟩⟩
  obtain ⟨hi, rfl⟩ := List.getElem?_eq_some_iff.1 h
  simp only
  rw [hn.idxOf_getElem]

/-- C153, part: two runs agree, whenever the programs were generated, whatever is in memory, however many threads there are, and in
whatever order they run. Missing: kernels with races. -/
theorem C153_same_partial (g : Random S V) (items : List Item) (threads threads2 : Nat) (iters : List (List (Assign Name V)))
    (initParts initParts2 : List (List (List (Assign Name V)))) (parts parts2 : Nat → List (List (List (Assign Name V)))) (before before2 : S)
    (timePer : ℚ) (repetitions : Nat) (env env2 : MainRun.Env) (fuel fuel2 : Nat) (orders orders2 : List (List Nat)) (m m2 m' m2' : Loc → V)
    (hrep : repetitions < 2 ^ 31) (hn : (scalarNames items).Nodup) (hi : Shares iters initParts) (hi2 : Shares iters initParts2)
    (hp : ∀ n, (parts n).length = threads ∧ Shares iters (parts n)) (hp2 : ∀ n, (parts2 n).length = threads2 ∧ Shares iters (parts2 n))
    (hind : iters.Pairwise Independent) (hk : ∀ i ∈ iters, ∀ a ∈ i, KeepsScalars (scalarNames items) a)
    (h : program g items threads initParts parts before (MainRun.repText timePer repetitions) env fuel orders m = some m')
    (h2 : program g items threads2 initParts2 parts2 before2 (MainRun.repText timePer repetitions) env2 fuel2 orders2 m2 = some m2') :
    (∀ s ∈ scalarNames items, m' (.main s) = m2' (.main s)) ∧ ∀ b k, Accessed iters b k → m' (.elem b k) = m2' (.elem b k) := by
  obtain ⟨start, hs⟩ := starts_exists (sequence g.uniform (g.seed 2342)) (scalarNames items) iters hn
  have a := C153_threads_partial g items threads iters initParts parts before timePer repetitions env fuel orders m m' start hrep hn hi hp hind hk hs h
  have b := C153_threads_partial g items threads2 iters initParts2 parts2 before2 timePer repetitions env2 fuel2 orders2 m2 m2' start hrep hn hi2 hp2 hind hk hs h2
  exact ⟨fun s hs => (a.1 s hs).trans (b.1 s hs).symm, fun x k hx => (a.2 x k hx).trans (b.2 x k hx).symm⟩

/-- C153: there is such a run, for all kernels. -/
theorem C153_possible (g : Random S V) (items : List Item) (threads : Nat) (initParts : List (List (List (Assign Name V))))
    (parts : Nat → List (List (List (Assign Name V)))) (before : S) (arg : List Char) (env : MainRun.Env) (m : Loc → V) :
    ∃ fuel orders m', program g items threads initParts parts before arg env fuel orders m = some m' := by
  obtain ⟨k, env', hk⟩ := MainRun.exec_main arg env
  obtain ⟨orders, m', h⟩ := runPhases_exists (eventPhases items threads (elementValue g items before) initParts parts 0 []
    ([.markerInit, .register, .initArrays, .dummy] ++ (List.replicate 2 [MainRun.Event.kernel, .dummy]).flatten ++
      .start :: ((List.replicate (CLib.atoi arg).toNat [MainRun.Event.kernel, .dummy]).flatten ++ [.stop, .close])))
    (declareScalars (scalarValues g items before).1 m)
  exact ⟨k, orders, m', by simp only [program, hk k le_rfl]; exact h⟩

/-! ### The claim fails -/

/-- A generator that counts. -/
def counting : Random Nat Int := ⟨fun _ => 0, fun s => ((s : Int) + 1, s + 1)⟩

/-- The scalar product by two threads, in two orders of steps. -/
theorem C153_negation_orders :
    (program counting wItems 2 [[product 0], [product 1]] (fun _ => [[product 0], [product 1]]) 5 (MainRun.repText 0 0) (fun _ => 0) 60
      [[0, 0, 1, 1], [0, 0, 1, 1, 0, 0, 0, 1, 1, 1, 0, 1], [0, 0, 1, 1, 0, 0, 1, 1, 0, 0, 0, 0, 1, 1, 1, 1], inTurn 2 2] wMem).map (fun m => m (.main "s")) = some 13 ∧
    (program counting wItems 2 [[product 0], [product 1]] (fun _ => [[product 0], [product 1]]) 5 (MainRun.repText 0 0) (fun _ => 0) 60
      [[0, 0, 1, 1], [0, 0, 1, 1, 0, 0, 0, 0, 1, 1, 1, 1], [0, 0, 1, 1, 0, 0, 1, 1, 0, 0, 0, 0, 1, 1, 1, 1], inTurn 2 2] wMem).map (fun m => m (.main "s")) = some 17 := by
  decide +kernel

theorem C153_negation : ¬ C153Claim := by
  intro h
  have h1 := C153_negation_orders.1
  cases hp : program counting wItems 2 [[product 0], [product 1]] (fun _ => [[product 0], [product 1]]) 5 (MainRun.repText 0 0) (fun _ => 0) 60
      [[0, 0, 1, 1], [0, 0, 1, 1, 0, 0, 0, 1, 1, 1, 0, 1], [0, 0, 1, 1, 0, 0, 1, 1, 0, 0, 0, 0, 1, 1, 1, 1], inTurn 2 2] wMem with
  | none => rw [hp] at h1; cases h1
  | some m' =>
    rw [hp] at h1
    have hsh : Shares [product 0, product 1] [[product 0], [product 1]] := List.Perm.refl _
    have h2 := h counting wItems 2 [product 0, product 1] [[product 0], [product 1]] (fun _ => [[product 0], [product 1]]) 5 0 0 (fun _ => 0) 60 _ wMem m'
      (fun | .scalar _ => 1 | .elem _ _ => 2) (by decide) (by decide) hsh (fun _ => ⟨rfl, hsh⟩) (product_declared [0, 1])
      ⟨by
        intro i s hi
        have : (scalarNames wItems) = ["s"] := by decide
        rw [this] at hi
        cases i with
        | zero => rfl
        | succ i => simp at hi, fun _ _ _ => show (2 : Int) = _ by decide⟩ hp
    have h3 := h2.1 "s" (by decide)
    simp only [Option.map_some, Option.some.injEq] at h1
    rw [h1] at h3
    revert h3
    decide +kernel

/-! ### Examples -/

/-- DAXPY by two threads and by one, with three repetitions. -/
example (before before2 : Nat) (env env2 : MainRun.Env) (fuel fuel2 : Nat) (orders orders2 : List (List Nat)) (m m2 m' m2' : Loc → Int)
    (h : program counting wItems 2 [[daxpy 0], [daxpy 1]] (fun n => if n % 2 = 0 then [[daxpy 0], [daxpy 1]] else [[daxpy 1], [daxpy 0]]) before
      (MainRun.repText (1 / 2) 3) env fuel orders m = some m')
    (h2 : program counting wItems 1 [[daxpy 0, daxpy 1]] (fun _ => [[daxpy 0, daxpy 1]]) before2 (MainRun.repText (1 / 2) 3) env2 fuel2 orders2 m2 = some m2') :
    m' (.elem "a" 1) = m2' (.elem "a" 1) := by
  have h0 : Shares [daxpy 0, daxpy 1] [[daxpy 0], [daxpy 1]] := List.Perm.refl _
  have h1 : Shares [daxpy 0, daxpy 1] [[daxpy 1], [daxpy 0]] := List.Perm.swap _ _ []
  have h3 : Shares [daxpy 0, daxpy 1] [[daxpy 0, daxpy 1]] := List.Perm.refl _
  refine (C153_same_partial counting wItems 2 1 ([0, 1].map daxpy) _ _ _ _ before before2 (1 / 2) 3 env env2 fuel fuel2 orders orders2 m m2 m' m2' (by decide)
    (by decide) h0 h3 (fun n => ?_) (fun _ => ⟨rfl, h3⟩) (daxpy_independent _ (by decide)) (daxpy_keeps _) h h2).2 "a" 1
    ⟨daxpy 1, by simp, _, List.mem_singleton.2 rfl, by simp [Assign.places]⟩
  by_cases hn : n % 2 = 0
  · rw [if_pos hn]; exact ⟨rfl, h0⟩
  · rw [if_neg hn]; exact ⟨rfl, h1⟩

/-- The scalar product of one thread: one, and four for each of the two elements in each of the three calls. -/
example (before : Nat) (env : MainRun.Env) (fuel : Nat) (orders : List (List Nat)) (m m' : Loc → Int)
    (h : program counting wItems 1 [[product 0, product 1]] (fun _ => [[product 0, product 1]]) before (MainRun.repText 0 1) env fuel orders m = some m') :
    m' (.main "s") = 25 := by
  refine ((C153_one_thread_partial counting wItems ([0, 1].map product) before 0 1 env fuel orders m m' (fun | .scalar _ => 1 | .elem _ _ => 2)
    (by decide) (by decide) (product_declared [0, 1]) ⟨?_, fun _ _ _ => show (2 : Int) = _ by decide⟩ h).1 "s" (by decide)).trans (by decide +kernel)
  intro i s hi
  have : (scalarNames wItems) = ["s"] := by decide
  rw [this] at hi
  cases i with
  | zero => rfl
  | succ i => simp at hi

example : (scalarValues counting [.decl "s" (.base "double"), .decl "t" (.base "double"), .other] 77, elementValue counting [.decl "s" (.base "double"), .decl "t" (.base "double"), .other] 77) =
    (([("s", 1), ("t", 2)], 2), 3) := by decide +kernel

end Verif.Parallel
