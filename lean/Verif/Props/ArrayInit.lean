import Verif.Lemmas.ArrayInit

/-!
C95: arrays are initialised where the kernel uses them.
-/

namespace Verif.ArrayInit

open Verif.Parse Verif.CSem

theorem denotes_agree {A : String → Prop} {e1 e2 : Env} (h : Agree A e1 e2) (e : Expr) (x : Element)
    (hv : ∀ y ∈ ((flat e).map fun r => r.2.flatMap vars).getD [], ¬ A y) (hd : Denotes e1 e x) : Denotes e2 e x := by
  obtain ⟨subs, h1, h2, h3⟩ := hd
  refine ⟨subs, h1, h2, ?_⟩
  simp only [h1, Option.map_some, Option.getD_some] at hv
  rw [← h3]
  clear h1 h2 h3
  induction subs with
  | nil => rfl
  | cons s subs ih =>
    simp only [List.mapM_cons]
    rw [eval_agree h s fun y hy => hv y (by simp [hy]), ih fun y hy => hv y (by simp only [List.flatMap_cons, List.mem_append]; exact .inr hy)]

/-- C95: the code that initialises arrays has one loop nest, after pragmas. From any values of the constants for which the
nest of the kernel ends, this nest ends as well, and it assigns to exactly the elements of arrays that the kernel reads or
writes. Missing: assignments in the body to variables that occur in heads of loops or in subscripts, and that the pointers
have other values when the kernel is called, see `C95_negation_swap`. -/
theorem C95_initialised_partial (omp : Bool) (v : List Char) (items : List Stmt) (r : Result) (h : processCode items = .ok r)
    (hd : Header) (b : Stmt) (hl : .loop hd b ∈ items)
    (hfix : ∀ x ∈ boundVars (.loop hd b) ++ subscriptVars (.loop hd b), ¬ Assigned (.loop hd b) x)
    (env : Env) (t : List Env) (env' : Env) (he : Exec (.loop hd b) env t env') :
    ∃ pre h' b', initCode omp v items = .ok (pre ++ .loop h' b' :: r.swaps) ∧ (∀ s ∈ pre, s = .pragma) ∧
      (∃ t' e', Exec (.loop h' b') env t' e') ∧
      ∀ t' e', Exec (.loop h' b') env t' e' → ∀ x, Writes (.loop h' b') t' x ↔ Touches (.loop hd b) t x := by
  obtain ⟨ds, ps, hd', b', ss, rfl, h1, h2, _, h4, hsw⟩ := processCode_ok items r h
  have heq : hd = hd' ∧ b = b' := by
    simp only [List.mem_append, List.mem_map, List.mem_singleton] at hl
    rcases hl with ((⟨d, _, hl⟩ | hl) | hl) | hl
    · cases hl
    · cases h1 _ hl
    · cases hl; exact ⟨rfl, rfl⟩
    · cases h2 _ hl
  obtain ⟨rfl, rfl⟩ := heq
  have hn : Nest (.loop hd b) := (pFor_iff _ _).mp ⟨_, h4⟩
  obtain ⟨⟨h', b', k0⟩, k1, k2, k3⟩ := nest_init (Assigned (.loop hd b)) v _ hn hd b rfl
    (fun x hx => hfix x (List.mem_append_left _ hx)) fun x hx => hx
  have hnest : (ds.map (fun d : String × TypeAst => Stmt.decl d.1 d.2) ++ ps ++ [Stmt.loop hd b] ++ ss).filter inNest = ps ++ .loop hd b :: ss := by
    have e1 : (ds.map fun d => Stmt.decl d.1 d.2).filter inNest = [] := by
      refine List.filter_eq_nil_iff.2 fun s hs => ?_
      obtain ⟨d, -, rfl⟩ := List.mem_map.1 hs
      exact Bool.false_ne_true
    have e4 : [Stmt.loop hd b].filter inNest = [.loop hd b] := rfl
    have e2 : ps.filter inNest = ps := List.filter_eq_self.2 fun p hp => by rw [h1 p hp]; rfl
    have e3 : ss.filter inNest = ss := List.filter_eq_self.2 fun p hp => by rw [h2 p hp]; rfl
    rw [List.filter_append, List.filter_append, List.filter_append, e1, e2, e3, e4]
    simp
  have hcode : ∀ ps : List Stmt, (∀ p ∈ ps, p = .pragma) → inItems (ps ++ .loop hd b :: ss) =
      some (true, (inLoop hd b).1, fun y => ps ++ (inLoop hd b).2 y :: ss) := fun ps hp => inItems_pragmas ps hp hd b ss
  have hln : loopNest omp (ds.map (fun d : String × TypeAst => Stmt.decl d.1 d.2) ++ ps ++ [Stmt.loop hd b] ++ ss) =
      .ok ((if omp then ps else .pragma :: ps) ++ .loop hd b :: ss) := by
    rw [loopNest, hnest]
    cases ps <;> cases omp <;> rfl
  have hpre : ∀ s ∈ (if omp then ps else Stmt.pragma :: ps), s = .pragma := by
    cases omp
    · intro s hs
      simp only [Bool.false_eq_true, if_false, List.mem_cons] at hs
      exact hs.elim id (h1 s)
    · simpa using h1
  refine ⟨if omp then ps else .pragma :: ps, h', b', ?_, hpre, ?_, ?_⟩
  · rw [initCode, hln]
    simp only [bind, Except.bind]
    rw [hcode _ hpre]
    simp only [k0, hsw]
  · rw [← k0]
    exact (k1 env env (fun _ _ => rfl) t env' he).1
  · intro t' e' hx x
    rw [← k0] at hx ⊢
    obtain ⟨ht, -⟩ := (k1 env env (fun _ _ => rfl) t env' he).2 t' e' hx
    have hsub : ∀ a ∈ assigns (.loop hd b), ∀ e ∈ a.2.1 :: assignmentReads a,
        ∀ y ∈ ((flat e).map fun r => r.2.flatMap vars).getD [], ¬ Assigned (.loop hd b) y := by
      intro a ha e he' y hy
      refine hfix y (List.mem_append_right _ ?_)
      exact List.mem_flatMap.2 ⟨a, ha, List.mem_flatMap.2 ⟨e, he', hy⟩⟩
    constructor
    · rintro ⟨env2, hm, a, ha, hden⟩
      rw [k2, assigns_assignments] at ha
      obtain ⟨r, hr, rfl⟩ := List.mem_map.1 ha
      obtain ⟨⟨a, ha, hr⟩, -⟩ := (k3 r).1 hr
      obtain ⟨env1, hm1, hag⟩ : ∃ env1 ∈ t, Agree (Assigned (.loop hd b)) env1 env2 := by
        obtain ⟨i, hi, rfl⟩ := List.mem_iff_getElem.1 hm
        have hl := ht.length_eq
        exact ⟨t[i], List.getElem_mem _, ht.get (by omega) (by omega)⟩
      exact ⟨env1, hm1, a, ha, r, hr, denotes_agree (fun y hy => (hag y hy).symm) r x (hsub a ha r hr) hden⟩
    · rintro ⟨env1, hm, a, ha, e, hr, hden⟩
      obtain ⟨subs, g1, g2, -⟩ := id hden
      have href := (k3 e).2 ⟨⟨a, ha, hr⟩, flat_place e _ subs g1 g2⟩
      obtain ⟨env2, hm2, hag⟩ : ∃ env2 ∈ t', Agree (Assigned (.loop hd b)) env1 env2 := by
        obtain ⟨i, hi, rfl⟩ := List.mem_iff_getElem.1 hm
        have hl := ht.length_eq
        exact ⟨t'[i], List.getElem_mem _, ht.get (by omega) (by omega)⟩
      refine ⟨env2, hm2, ("=", e, .const v), ?_, denotes_agree hag e x (hsub a ha e hr) hden⟩
      rw [k2, assigns_assignments]
      exact List.mem_map.2 ⟨e, href, rfl⟩

/-- `for (int i = 1; i < N - 1; ++i)` -/
def stencilHead : Header :=
  ⟨.decls [("i", ["int"], some (.const ['1']))], some (.bin "<" (.id "i") (.bin "-" (.id "N") (.const ['1']))), .un "++" (.id "i")⟩

/-- `b[i] = a[i - 1] + a[i + 1];` -/
def stencilBody : Stmt :=
  .assign "=" (.ref (.id "b") (.id "i"))
    (.bin "+" (.ref (.id "a") (.bin "-" (.id "i") (.const ['1']))) (.ref (.id "a") (.bin "+" (.id "i") (.const ['1']))))

/-- A stencil with arrays `a` and `b` that are exchanged afterwards. -/
def stencil : List Stmt :=
  [.decl "a" (.array (some (.id "N")) (.base ["double"])), .decl "b" (.array (some (.id "N")) (.base ["double"])),
   .loop stencilHead stencilBody, .call (some "swap")]

theorem stencil_exec (env : Env) (h : env "N" = 3) :
    Exec (.loop stencilHead stencilBody) env [upd env "i" 1] (upd (upd (upd env "i" 1) "i" 2) "i" (env "i")) := by
  rw [Exec]
  refine ⟨"i", ["int"], .const ['1'], _, 1, _, rfl, rfl, rfl, ?_, rfl⟩
  have e1 : ∀ k, condVal (upd env "i" k) (.bin "<" (.id "i") (.bin "-" (.id "N") (.const ['1']))) = some (decide (k < 2)) := by
    intro k
    have : constVal ['1'] = some 1 := by decide
    simp [condVal, eval, upd, h, this]
  have e2 : upd (upd env "i" 1) "i" 2 = upd env "i" 2 := by
    funext x; simp only [upd]; split <;> rfl
  have := Iter.go (cond := .bin "<" (.id "i") (.bin "-" (.id "N") (.const ['1']))) (next := .un "++" (.id "i"))
    (R := Exec stencilBody) (upd env "i" 1) (upd env "i" 1) (upd (upd env "i" 1) "i" 2) _ [upd env "i" 1] [] (by rw [e1]; decide)
    (by unfold stencilBody; rw [Exec]; exact ⟨rfl, fun _ _ => rfl⟩) (by simp [nextEnv, upd])
    (.stop _ (by rw [e2, e1]; decide))
  simpa [stencilHead] using this

/-- The stencil meets the hypotheses of `C95_initialised_partial`. -/
example : (∃ r, processCode stencil = .ok r) ∧ .loop stencilHead stencilBody ∈ stencil ∧
    (∀ x ∈ boundVars (.loop stencilHead stencilBody) ++ subscriptVars (.loop stencilHead stencilBody),
      ¬ Assigned (.loop stencilHead stencilBody) x) ∧
    ∃ env t env', Exec (.loop stencilHead stencilBody) env t env' := by
  refine ⟨?_, by simp [stencil], ?_, fun _ => 3, _, _, stencil_exec _ rfl⟩
  · have h : (processCode stencil).toOption.isSome = true := by decide +kernel
    cases hp : processCode stencil with
    | ok r => exact ⟨r, rfl⟩
    | error e => rw [hp] at h; cases h
  · rintro x - ⟨a, ha, hx⟩
    simp only [stencilBody, assigns, List.mem_singleton] at ha
    subst ha
    cases hx

/-- C95 is false for the arrays behind the pointers: the initialisation ends with the exchange of `a` and `b`, after which the
kernel reads `a[0]`, which is the element `b[0]` that no iteration has assigned to. -/
theorem C95_negation_swap : ∃ h' b', initCode false ['1'] stencil = .ok [.pragma, .loop h' b', .call (some "swap")] ∧
    ∃ env t env', Exec (.loop stencilHead stencilBody) env t env' ∧ (∃ t' e', Exec (.loop h' b') env t' e') ∧
    ∃ x, Touches (.loop stencilHead stencilBody) t x ∧
      ∀ t' e', Exec (.loop h' b') env t' e' → ¬ Writes (.loop h' b') t' (swapPtr id ("a", "b") x.1, x.2) := by
  obtain ⟨r, hr⟩ : ∃ r, processCode stencil = .ok r := by
    have h : (processCode stencil).toOption.isSome = true := by decide +kernel
    cases hp : processCode stencil with
    | ok r => exact ⟨r, rfl⟩
    | error e => rw [hp] at h; cases h
  have hfix : ∀ x ∈ boundVars (.loop stencilHead stencilBody) ++ subscriptVars (.loop stencilHead stencilBody),
      ¬ Assigned (.loop stencilHead stencilBody) x := by
    rintro x - ⟨a, ha, hx⟩
    simp only [stencilBody, assigns, List.mem_singleton] at ha
    subst ha
    cases hx
  obtain ⟨pre, h', b', g1, g2, g3, g4⟩ := C95_initialised_partial false ['1'] stencil r hr stencilHead stencilBody
    (by simp [stencil]) hfix _ _ _ (stencil_exec (fun _ => 3) rfl)
  have hc : initCode false ['1'] stencil =
      .ok [.pragma, .loop stencilHead (assignments ['1'] stencilBody), .call (some "swap")] := rfl
  rw [hc] at g1
  obtain ⟨rfl, rfl⟩ : stencilHead = h' ∧ assignments ['1'] stencilBody = b' := by
    simp only [Except.ok.injEq] at g1
    match pre, g2, g1 with
    | [], _, g1 => simp at g1
    | [p], _, g1 => simp at g1; exact ⟨g1.2.1.1, g1.2.1.2⟩
    | p :: q :: pre, g2, g1 =>
      have := g2 q (by simp)
      subst this
      simp at g1
  refine ⟨_, _, hc, fun _ => 3, _, _, stencil_exec _ rfl, g3, ("a", [0]), ?_, ?_⟩
  · refine ⟨_, List.mem_singleton.2 rfl, ("=", _, _), List.mem_singleton.2 rfl, .ref (.id "a") (.bin "-" (.id "i") (.const ['1'])), ?_,
      [.bin "-" (.id "i") (.const ['1'])], rfl, by simp, by decide⟩
    simp [assignmentReads, reads]
  · intro t' e' hx hw
    obtain ⟨env, he, a, ha, e, hr, subs, k1, k2, k3⟩ := (g4 t' e' hx _).1 hw
    simp only [List.mem_singleton] at he
    simp only [stencilBody, assigns, List.mem_singleton] at ha
    subst he ha
    simp only [assignmentReads, reads, if_true, List.nil_append, List.mem_cons, List.not_mem_nil, or_false,
      List.singleton_append] at hr
    have hs : swapPtr id ("a", "b") "a" = "b" := rfl
    simp only [hs] at k1 k3
    rcases hr with rfl | rfl | rfl
    · simp only [flat, Option.map_some, Option.some.injEq, Prod.mk.injEq, true_and, List.nil_append] at k1
      subst k1
      revert k3
      decide
    · simp [flat] at k1
    · simp [flat] at k1

end Verif.ArrayInit
