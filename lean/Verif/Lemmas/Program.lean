import Verif.Model.Program
import Verif.Lemmas.MainRun
import Verif.Lemmas.ParallelInit

/-! Lemmas for C153. -/

namespace Verif.MainRun

/-- The calls of the main program, whenever it ends. -/
theorem exec_calls (arg : List Char) (env : Env) (fuel : Nat) (r : Env × List Event) (h : exec arg fuel template env = some r) :
    r.2 = [.markerInit, .register, .initArrays, .dummy] ++ (List.replicate 2 [Event.kernel, .dummy]).flatten ++
      .start :: ((List.replicate (CLib.atoi arg).toNat [Event.kernel, .dummy]).flatten ++ [.stop, .close]) := by
  obtain ⟨k, env', hk⟩ := exec_main arg env
  have h1 := exec_mono arg fuel _ _ _ h (fuel + k) (by omega)
  rw [hk _ (by omega)] at h1
  cases h1
  rfl

end Verif.MainRun

namespace Verif.Parallel

open Verif.CodeGen

variable {S V : Type}

theorem eventPhases_kernels [Inhabited V] (items : List Item) (threads : Nat) (c : V) (initParts : List (List (List (Assign Name V))))
    (parts : Nat → List (List (List (Assign Name V)))) (rest : List MainRun.Event)
    (hrest : ∀ n before, eventPhases items threads c initParts parts n before rest = [List.replicate threads before]) (k : Nat) :
    ∀ (n : Nat) (before : List (Assign Loc V)), eventPhases items threads c initParts parts n before
      ((List.replicate k [MainRun.Event.kernel, .dummy]).flatten ++ rest) = phases items threads before ((List.range' n k).map parts) := by
  induction k with
  | zero => intro n before; simpa [phases] using hrest n before
  | succ k ih =>
    intro n before
    rw [List.replicate_succ, List.flatten_cons, List.range'_succ, List.map_cons, List.append_assoc]
    simp only [List.cons_append, List.nil_append, eventPhases, phases]
    rw [ih]

theorem eventPhases_start [Inhabited V] (items : List Item) (threads : Nat) (c : V) (initParts : List (List (List (Assign Name V))))
    (parts : Nat → List (List (List (Assign Name V)))) (k : Nat) (n : Nat) (before : List (Assign Loc V)) (es : List MainRun.Event) :
    eventPhases items threads c initParts parts n before ((List.replicate k [MainRun.Event.kernel, .dummy]).flatten ++ .start :: es) =
      eventPhases items threads c initParts parts n before ((List.replicate k [MainRun.Event.kernel, .dummy]).flatten ++ es) := by
  induction k generalizing n before with
  | zero => simp [eventPhases]
  | succ k ih =>
    simp only [List.replicate_succ, List.flatten_cons, List.cons_append, List.nil_append, eventPhases]
    rw [ih]

/-- The phases of the whole program. -/
theorem eventPhases_template [Inhabited V] (items : List Item) (threads : Nat) (c : V) (initParts : List (List (List (Assign Name V))))
    (parts : Nat → List (List (List (Assign Name V)))) (k : Nat) :
    eventPhases items threads c initParts parts 0 [] ([.markerInit, .register, .initArrays, .dummy] ++
      (List.replicate 2 [MainRun.Event.kernel, .dummy]).flatten ++
      .start :: ((List.replicate k [MainRun.Event.kernel, .dummy]).flatten ++ [.stop, .close])) =
      initPhase c initParts :: phases items threads [] ((List.range (2 + k)).map parts) := by
  simp only [List.cons_append, List.nil_append, eventPhases]
  rw [eventPhases_start, ← List.append_assoc, ← List.flatten_append, List.replicate_append_replicate,
    eventPhases_kernels _ _ _ _ _ _ (by intro n b; simp [eventPhases])]
  simp [initPhase, List.range_eq_range']

/-- What a run of the program is. -/
theorem program_eq [Inhabited V] (g : Random S V) (items : List Item) (threads : Nat) (initParts : List (List (List (Assign Name V))))
    (parts : Nat → List (List (List (Assign Name V)))) (before : S) (arg : List Char) (env : MainRun.Env) (fuel : Nat) (orders : List (List Nat))
    (m m' : Loc → V) (h : program g items threads initParts parts before arg env fuel orders m = some m') :
    region (elementValue g items before) items threads initParts ((List.range (2 + (CLib.atoi arg).toNat)).map parts) orders
      (declareScalars (scalarValues g items before).1 m) = some m' := by
  unfold program at h
  split at h
  · cases h
  · next e t ht =>
    have := MainRun.exec_calls arg env fuel _ ht
    simp only at this
    rw [this, eventPhases_template] at h
    exact h

/-- The state of the generator after a number of draws. -/
def stateAfter (g : Random S V) (s : S) : Nat → S
  | 0 => s
  | n + 1 => stateAfter g (g.uniform s).2 n

theorem drawAll_spec (g : Random S V) (xs : List String) : ∀ s : S, (drawAll g xs s).2 = stateAfter g s xs.length ∧
    (drawAll g xs s).1.map Prod.fst = xs ∧ ∀ (i : Nat) (x : String), xs[i]? = some x → (drawAll g xs s).1[i]? = some (x, (g.uniform (stateAfter g s i)).1) := by
  induction xs with
  | nil => intro s; simp [drawAll, stateAfter]
  | cons x xs ih =>
    intro s
    obtain ⟨h1, h2, h3⟩ := ih (g.uniform s).2
    refine ⟨by simp [drawAll, h1, stateAfter], by simp [drawAll, h2], ?_⟩
    intro i y hi
    cases i with
    | zero =>
      simp only [List.getElem?_cons_zero, Option.some.injEq] at hi
      subst hi
      simp [drawAll, stateAfter]
    | succ i =>
      simp only [List.getElem?_cons_succ] at hi
      simp only [drawAll, List.getElem?_cons_succ, h3 i y hi, stateAfter]

theorem declareScalars_other (l : List (String × V)) (p : Loc) : ∀ m : Loc → V, (∀ x ∈ l.map Prod.fst, p ≠ .main x) → declareScalars l m p = m p := by
  induction l with
  | nil => intro m _; rfl
  | cons a l ih =>
    intro m h
    have h1 := ih (put m (.main a.1) a.2) fun x hx => h x (List.mem_cons_of_mem _ hx)
    have h2 : p ≠ .main a.1 := h a.1 (by simp)
    calc declareScalars (a :: l) m p = declareScalars l (put m (.main a.1) a.2) p := rfl
      _ = m p := by rw [h1]; simp [put, h2]

theorem declareScalars_get (l : List (String × V)) : ∀ (m : Loc → V) (i : Nat) (x : String) (v : V), (l.map Prod.fst).Nodup → l[i]? = some (x, v) →
    declareScalars l m (.main x) = v := by
  induction l with
  | nil => intro m i x v _ h; simp at h
  | cons a l ih =>
    intro m i x v hn h
    rw [List.map_cons, List.nodup_cons] at hn
    cases i with
    | zero =>
      simp only [List.getElem?_cons_zero, Option.some.injEq] at h
      subst h
      have : declareScalars ((x, v) :: l) m (.main x) = declareScalars l (put m (.main x) v) (.main x) := rfl
      rw [this, declareScalars_other _ _ _ (by
        intro y hy e
        cases e
        exact hn.1 hy)]
      simp [put]
    | succ i =>
      have : declareScalars (a :: l) m (.main x) = declareScalars l (put m (.main a.1) a.2) (.main x) := rfl
      rw [this]
      exact ih _ i x v hn.2 (by simpa using h)

/-- The loop nest, repeated, from memories that agree on what it reads. -/
theorem repeated_congr (T : Name → Prop) (iters : List (List (Assign Name V))) (hr : ∀ i ∈ iters, ∀ a ∈ i, ∀ q ∈ a.reads, T q) (n : Nat) :
    ∀ m m' : Name → V, (∀ q, T q → m q = m' q) → ∀ q, T q → repeated iters n m q = repeated iters n m' q := by
  induction n with
  | zero => intro m m' h q hq; exact h q hq
  | succ n ih =>
    intro m m' h q hq
    refine ih _ _ (execAll_congr T iters.flatten m m' ?_ h) q hq
    intro a ha
    obtain ⟨i, hi, hai⟩ := List.mem_flatten.1 ha
    exact hr i hi a hai

end Verif.Parallel
