import Verif.Lemmas.Parallel

/-!
C151: Several threads leave what one would.
-/

namespace Verif.Parallel

open Verif.CodeGen

/-- C151: the scalars of the main program and the arrays are, after any number of calls by any number of threads, whatever iterations
each one is given and whatever the order of their steps, what the loop nest leaves when it is executed as often. -/
def C151Claim : Prop :=
  ∀ (items : List Item) (threads : Nat) (iters : List (List (Assign Name Int))) (calls : List (List (List (List (Assign Name Int)))))
    (orders : List (List Nat)) (m m' : Loc → Int), (∀ i ∈ iters, ∀ a ∈ i, Declared (scalarNames items) a) →
    (∀ parts ∈ calls, parts.length = threads ∧ Shares iters parts) →
    parallel items threads calls orders m = some m' → visible m' = repeated iters calls.length (visible m)

variable {V : Type} [Inhabited V]

/-- C151, part: for kernels whose outer iterations are independent and that do not write scalars. Missing: other kernels, see the
negations. -/
theorem C151_independent_partial (items : List Item) (threads : Nat) (iters : List (List (Assign Name V)))
    (calls : List (List (List (List (Assign Name V))))) (orders : List (List Nat)) (m m' : Loc → V)
    (hind : iters.Pairwise Independent) (hk : ∀ i ∈ iters, ∀ a ∈ i, KeepsScalars (scalarNames items) a)
    (hc : ∀ parts ∈ calls, parts.length = threads ∧ Shares iters parts)
    (h : parallel items threads calls orders m = some m') : visible m' = repeated iters calls.length (visible m) :=
  calls_result items threads iters hind hk calls [] orders m m' (Or.inl rfl) hc h

/-- C151, part: for all kernels with one thread, whatever the static variables were before. -/
theorem C151_one_thread_partial (items : List Item) (iters : List (List (Assign Name V))) (calls : Nat) (orders : List (List Nat)) (m m' : Loc → V)
    (hd : ∀ i ∈ iters, ∀ a ∈ i, Declared (scalarNames items) a)
    (h : parallel items 1 (List.replicate calls [iters]) orders m = some m') : visible m' = repeated iters calls (visible m) :=
  calls_one items iters hd calls [] orders m m' h

/-- C151: there is an order in which all calls end, for any kernel. -/
theorem C151_possible (items : List Item) (threads : Nat) (calls : List (List (List (List (Assign Name V))))) (m : Loc → V) :
    ∃ orders m', parallel items threads calls orders m = some m' :=
  runPhases_exists _ m

omit [Inhabited V] in
/-- C151: the threads always come to the end of a phase, whatever steps were taken. -/
theorem C151_completes (progs : List (List (Assign Loc V))) (order : List Nat) (m : Loc → V) (st : (Loc → V) × List (Thread V))
    (h : steps order (m, progs.map fun p => ⟨[], p⟩) = some st) : ∃ order' m', phase (order ++ order') progs m = some m' := by
  obtain ⟨o, st', h1, h2⟩ := steps_finish _ st rfl
  refine ⟨o, st'.1, ?_⟩
  unfold phase
  rw [steps_append, h, Option.bind_some, h1]
  simp [h2]

/-! ### Kernels -/

/-- `double a[N], b[N]; double s;` -/
def wItems : List Item := [.decl "a" (.arr (.var "N") (.base "double")), .decl "b" (.arr (.var "N") (.base "double")), .decl "s" (.base "double"), .other]

/-- `examples/kernels/DAXPY.c`: `a[i] = a[i] + s * b[i];` -/
def daxpy (i : Int) : List (Assign Name Int) :=
  [⟨[.elem "a" i, .scalar "s", .elem "b" i], .elem "a" i, fun l => l[0]! + l[1]! * l[2]!⟩]

/-- `examples/kernels/scalar_product.c`: `s += a[i]*b[i];` -/
def product (i : Int) : List (Assign Name Int) :=
  [⟨[.scalar "s", .elem "a" i, .elem "b" i], .scalar "s", fun l => l[0]! + l[1]! * l[2]!⟩]

/-- `s = a[i]; b[i] = s;`, as the auxiliary scalars of `examples/kernels/kahan-dot.c`. -/
def through (i : Int) : List (Assign Name Int) := [⟨[.elem "a" i], .scalar "s", fun l => l[0]!⟩, ⟨[.scalar "s"], .elem "b" i, fun l => l[0]!⟩]

/-- `a[i] = a[i-1];` -/
def shift (i : Int) : List (Assign Name Int) := [⟨[.elem "a" (i - 1)], .elem "a" i, fun l => l[0]!⟩]

/-- `a[i]` is `i + 2`, `b[i]` is 1, and `s` is 3. -/
def wMem : Loc → Int
  | .main "s" => 3
  | .elem "a" i => i + 2
  | .elem "b" _ => 1
  | _ => 0

/-- All steps of the first thread, then all of the second. -/
def inTurn (n k : Nat) : List Nat := List.replicate n 0 ++ List.replicate k 1

/-! ### The claim fails -/

theorem product_declared (n : List Int) : ∀ i ∈ n.map product, ∀ a ∈ i, Declared (scalarNames wItems) a := by
  intro i hi a ha s hs
  obtain ⟨k, -, rfl⟩ := List.mem_map.1 hi
  simp only [product, List.mem_singleton] at ha
  subst ha
  simp [Assign.places] at hs
  subst hs
  decide

/-- The scalar product of two threads, one iteration each: both read the sum before one of them writes it. The contribution of the
first thread is lost. -/
theorem C151_negation_update :
    (parallel wItems 2 [[[product 0], [product 1]]] [[0, 0, 1, 1, 0, 0, 0, 1, 1, 1, 0, 1], inTurn 2 2] wMem).map (fun m => m (.main "s")) = some 6 ∧
      repeated [product 0, product 1] 1 (visible wMem) (.scalar "s") = 8 := by
  decide +kernel

/-- The scalar product again: no two iterations overlap, but the second thread enters the kernel function when the first has executed
its iterations, and resets the sum. -/
theorem C151_negation_late :
    (parallel wItems 2 [[[product 0], [product 1]]] [inTurn 6 6, inTurn 2 2] wMem).map (fun m => m (.main "s")) = some 6 := by
  decide +kernel

/-- An auxiliary scalar, independent iterations otherwise: the second thread stores what the first has read. -/
theorem C151_negation_auxiliary :
    (parallel wItems 2 [[[through 0], [through 1]]] [[0, 0, 1, 1, 0, 0, 1, 1, 0, 0, 1, 1], inTurn 2 2] wMem).map
      (fun m => (m (.elem "b" 0), m (.elem "b" 1))) = some (3, 3) ∧
      (repeated [through 0, through 1] 1 (visible wMem) (.elem "b" 0), repeated [through 0, through 1] 1 (visible wMem) (.elem "b" 1)) = (2, 3) := by
  decide +kernel

/-- A recurrence: the directive is inserted nevertheless (C112). -/
theorem C151_negation_recurrence :
    (parallel wItems 2 [[[shift 0], [shift 1]]] [[1, 1, 1, 1, 0, 0, 0, 0], inTurn 2 2] wMem).map
      (fun m => (m (.elem "a" 0), m (.elem "a" 1))) = some (1, 2) ∧
      (repeated [shift 0, shift 1] 1 (visible wMem) (.elem "a" 0), repeated [shift 0, shift 1] 1 (visible wMem) (.elem "a" 1)) = (1, 1) := by
  decide +kernel

theorem C151_negation : ¬ C151Claim := by
  intro h
  have h1 := C151_negation_update.1
  cases hp : parallel wItems 2 [[[product 0], [product 1]]] [[0, 0, 1, 1, 0, 0, 0, 1, 1, 1, 0, 1], inTurn 2 2] wMem with
  | none => rw [hp] at h1; cases h1
  | some m' =>
    rw [hp] at h1
    have h2 := h wItems 2 [product 0, product 1] [[[product 0], [product 1]]] _ wMem m' (product_declared [0, 1]) (by
      intro parts hp
      obtain rfl := List.mem_singleton.1 hp
      exact ⟨rfl, List.Perm.refl _⟩) hp
    have h3 := congrFun h2 (.scalar "s")
    rw [show ([[[product 0], [product 1]]] : List (List (List (List (Assign Name Int))))).length = 1 from rfl, C151_negation_update.2] at h3
    simp only [Option.map_some, Option.some.injEq] at h1
    exact absurd (h1.symm.trans h3) (by decide)

/-! ### Examples -/

theorem daxpy_independent (n : List Int) (hn : n.Nodup) : (n.map daxpy).Pairwise Independent := by
  rw [List.pairwise_map]
  refine List.Pairwise.imp ?_ hn
  intro i j hij a ha b hb
  simp only [daxpy, List.mem_singleton] at ha hb
  subst ha hb
  simp [Assign.places, hij, Ne.symm hij]

theorem daxpy_keeps (n : List Int) : ∀ i ∈ n.map daxpy, ∀ a ∈ i, KeepsScalars (scalarNames wItems) a := by
  intro i hi a ha
  obtain ⟨k, -, rfl⟩ := List.mem_map.1 hi
  simp only [daxpy, List.mem_singleton] at ha
  subst ha
  refine ⟨⟨"a", k, rfl⟩, fun s hs => ?_⟩
  simp at hs
  subst hs
  decide

/-- Two calls by two threads, with three iterations. -/
example (orders : List (List Nat)) (m m' : Loc → Int)
    (h : parallel wItems 2 [[[daxpy 0, daxpy 1], [daxpy 2]], [[daxpy 2, daxpy 0], [daxpy 1]]] orders m = some m') :
    visible m' = repeated [daxpy 0, daxpy 1, daxpy 2] 2 (visible m) :=
  C151_independent_partial wItems 2 ([0, 1, 2].map daxpy) _ orders m m' (daxpy_independent _ (by decide)) (daxpy_keeps _) (by
    intro parts hp
    simp only [List.mem_cons, List.not_mem_nil, or_false] at hp
    rcases hp with rfl | rfl
    · exact ⟨rfl, List.Perm.refl _⟩
    · exact ⟨rfl, (List.Perm.cons _ (List.Perm.refl _)).trans ((List.perm_append_comm (l₁ := [daxpy 2]) (l₂ := [daxpy 0, daxpy 1])))⟩) h

example : (parallel wItems 2 [[[daxpy 0], [daxpy 1]], [[daxpy 1], [daxpy 0]]]
    [[1, 0, 1, 0, 1, 0, 1, 1, 0, 1, 0, 0], [0, 1, 0, 0, 0, 1, 1, 1, 1, 1, 0, 0, 1, 0, 1, 0], [1, 0, 1, 0]] wMem).map
      (fun m => (m (.elem "a" 0), m (.elem "a" 1), m (.main "s"))) = some (8, 9, 3) := by
  decide +kernel

example (orders : List (List Nat)) (m m' : Loc → Int) (h : parallel wItems 1 (List.replicate 3 [[product 0, product 1]]) orders m = some m') :
    visible m' = repeated [product 0, product 1] 3 (visible m) :=
  C151_one_thread_partial wItems _ 3 orders m m' (product_declared [0, 1]) h

example : ∃ order' m', phase ([0, 1, 1] ++ order') [[copy (.static "s") (.main "s")], copyIn wItems ++ (daxpy 1).map compiled] wMem = some m' :=
  C151_completes _ _ _ _ (by rfl)

end Verif.Parallel
