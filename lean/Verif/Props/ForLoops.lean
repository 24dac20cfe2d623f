import Verif.Props.References
import Verif.Spec.Loops

/-!
C46 and C67: accepted loops and index types.
-/

namespace Verif.Parse

open Verif.Text Verif.CSem Verif.Iteration

/-- The symbols of an expression. -/
def Sym.syms : Sym → List String
  | .sym n => [n]
  | .int _ => []
  | .add a b => a.syms ++ b.syms
  | .sub a b => a.syms ++ b.syms
  | .mul a b => a.syms ++ b.syms

theorem Sym.eval_congr (s : Sym) (env env' : Env) (h : ∀ x ∈ s.syms, env x = env' x) : s.eval env = s.eval env' := by
  induction s with
  | sym n => exact h n (by simp [syms])
  | int v => rfl
  | add a b iha ihb =>
    simp only [eval]
    rw [iha fun x hx => h x (by simp [syms, hx]), ihb fun x hx => h x (by simp [syms, hx])]
  | sub a b iha ihb =>
    simp only [eval]
    rw [iha fun x hx => h x (by simp [syms, hx]), ihb fun x hx => h x (by simp [syms, hx])]
  | mul a b iha ihb =>
    simp only [eval]
    rw [iha fun x hx => h x (by simp [syms, hx]), ihb fun x hx => h x (by simp [syms, hx])]

/-- The constants of a head are decimal. -/
def plainHead (h : Header) : Bool :=
  (match h.init with
    | .decls ds => ds.all fun d => d.2.2.all plain
    | .other => true) &&
  h.cond.all plain &&
  (match h.next with
    | .assign _ _ e => plain e
    | _ => true)

/-- The loop that an entry of the loop stack describes for given values of the constants. -/
def loopAt (env : Env) (e : Entry) : Loop := ⟨e.start.eval env, e.stop.eval env, e.incr⟩

/-- The index tuple at a point of the execution. -/
def indices (es : List Entry) (env : Env) : List Int := es.map fun e => env e.name

/-- Restrictions on the recorded loops, `A` are the variables assigned to in the body: counters are different and not
assigned to, increments are positive, bounds neither depend on counters nor on variables assigned to. -/
def Regular (A : String → Prop) (es : List Entry) : Prop :=
  (es.map Entry.name).Nodup ∧ (∀ e ∈ es, 0 < e.incr ∧ ¬ A e.name) ∧
  ∀ e ∈ es, ∀ v, v ∈ e.start.syms ∨ v ∈ e.stop.syms → ¬ A v ∧ ∀ e' ∈ es, e'.name ≠ v

theorem Regular.tail {A : String → Prop} {e : Entry} {es : List Entry} (h : Regular A (e :: es)) : Regular A es := by
  obtain ⟨h1, h2, h3⟩ := h
  refine ⟨(List.nodup_cons.mp h1).2, fun x hx => h2 x (by simp [hx]), fun x hx v hv => ?_⟩
  obtain ⟨g1, g2⟩ := h3 x (by simp [hx]) v hv
  exact ⟨g1, fun y hy => g2 y (by simp [hy])⟩

/-- What an execution of a statement does: its index tuples are those of the recorded loops; variables that are not
assigned to are unchanged, also at the beginning of each iteration unless they are counters. -/
def Faithful (A : String → Prop) (es : List Entry) (R : Env → List Env → Env → Prop) : Prop :=
  ∀ env t env', R env t env' →
    t.map (indices es) = cNest (es.map (loopAt env)) ∧
    (∀ x, ¬ A x → env' x = env x) ∧
    ∀ e ∈ t, ∀ x, ¬ A x → (∀ y ∈ es, y.name ≠ x) → e x = env x

/-- Executions exist. -/
def Total (R : Env → List Env → Env → Prop) : Prop := ∀ env, ∃ t env', R env t env'

theorem leaf_faithful (s : Stmt) : Faithful (Assigned s) [] (LeafExec s) := by
  rintro env t env' ⟨rfl, h⟩
  refine ⟨rfl, h, ?_⟩
  intro e he x _ _
  simp only [List.mem_singleton] at he
  rw [he]

theorem leaf_total (s : Stmt) : Total (LeafExec s) := fun env => ⟨[env], env, rfl, fun _ _ => rfl⟩

theorem cLoop_nil (s e c : Int) (h : ¬ s < e) : cLoop s e c = [] := by
  rw [cLoop, if_neg]
  exact fun g => h g.1

theorem cLoop_cons (s e c : Int) (h : s < e) (hc : 0 < c) : cLoop s e c = s :: cLoop (s + c) e c := by
  rw [cLoop, if_pos ⟨h, hc⟩]

theorem loopAt_congr (env env' : Env) (es : List Entry)
    (h : ∀ e ∈ es, ∀ v, v ∈ e.start.syms ∨ v ∈ e.stop.syms → env v = env' v) :
    es.map (loopAt env) = es.map (loopAt env') := by
  apply List.map_congr_left
  intro e he
  unfold loopAt
  rw [e.start.eval_congr env env' fun x hx => h e he x (Or.inl hx), e.stop.eval_congr env env' fun x hx => h e he x (Or.inr hx)]

/-- What is known about an accepted head. -/
structure HeadIs (h : Header) (e : Entry) : Prop where
  facts : ∃ type init f, h.init = .decls [(e.name, type, some init)] ∧ h.cond = some (.bin "<" (.id e.name) f) ∧
    (∀ env, CSem.eval env init = some (e.start.eval env)) ∧ (∀ env, CSem.eval env f = some (e.stop.eval env)) ∧
    ∀ env, nextEnv env h.next = some (upd env e.name (env e.name + e.incr))

theorem head_is (h : Header) (e : Entry) (hh : pHeader h = .ok e) (hp : plainHead h = true) : HeadIs h e := by
  obtain ⟨n, type, init, f, h1, h2, rfl, h3, h4, h5⟩ := (pHeader_ok h e).mp hh
  obtain ⟨hi, hc, hn⟩ := h
  simp only at h1 h2 h5
  subst h1 h2
  simp only [plainHead, List.all_cons, List.all_nil, Bool.and_true, Option.all_some, plain, Bool.true_and,
    Bool.and_eq_true] at hp
  obtain ⟨⟨p1, p2⟩, p3⟩ := hp
  have hf := (pStop_iff f).mp ⟨_, h4⟩
  rw [pStop_eq_conv f hf] at h4
  refine ⟨type, init, f, rfl, rfl, conv_value init _ h3 p1, conv_value f _ h4 p2, fun env => ?_⟩
  obtain ⟨_, hincr⟩ := (pNext_iff _ _ hn).mp ⟨_, h5⟩
  cases hincr with
  | pre =>
    have : e.incr = 1 := by
      simp only [pNext] at h5
      simpa using h5.symm
    rw [this]
    simp [nextEnv]
  | post =>
    have : e.incr = 1 := by
      simp only [pNext] at h5
      simpa using h5.symm
    rw [this]
    simp [nextEnv]
  | add t ht =>
    have hv : conv (.const t) = .ok (.int e.incr) := by
      simp only [pNext] at h5
      simp only [ne_eq, not_true_eq_false, if_false, and_self, if_true] at h5
      simp [conv, h5, Except.map]
    have := conv_value (.const t) _ hv p3 env
    simp only [nextEnv, this]
    rfl

theorem iter_faithful (A : String → Prop) (e : Entry) (es : List Entry) (hreg : Regular A (e :: es))
    (R : Env → List Env → Env → Prop) (hR : Faithful A es R) (f : Expr) (next : Next)
    (hf : ∀ env, CSem.eval env f = some (e.stop.eval env))
    (hn : ∀ env, nextEnv env next = some (upd env e.name (env e.name + e.incr)))
    (base : Env) (env : Env) (t : List Env) (env' : Env) (hit : Iter (.bin "<" (.id e.name) f) next R env t env')
    (hag : ∀ x, ¬ A x → x ≠ e.name → env x = base x) :
    t.map (indices (e :: es)) =
      (cLoop (env e.name) (e.stop.eval base) e.incr).flatMap (fun i => (cNest (es.map (loopAt base))).map (fun t => i :: t)) ∧
    (∀ x, ¬ A x → x ≠ e.name → env' x = base x) ∧
    ∀ y ∈ t, ∀ x, ¬ A x → (∀ z ∈ e :: es, z.name ≠ x) → y x = base x := by
  obtain ⟨hnd, hpos, hdep⟩ := hreg
  have hstop : ∀ env : Env, (∀ x, ¬ A x → x ≠ e.name → env x = base x) → e.stop.eval env = e.stop.eval base := by
    intro env hag
    apply Sym.eval_congr
    intro x hx
    obtain ⟨g1, g2⟩ := hdep e (by simp) x (Or.inr hx)
    exact hag x g1 fun he => g2 e (by simp) he.symm
  have hname : e.name ∉ es.map Entry.name := (List.nodup_cons.mp hnd).1
  obtain ⟨hincr, hA⟩ := hpos e (by simp)
  induction hit with
  | stop env h =>
    refine ⟨?_, hag, by simp⟩
    simp only [condVal, CSem.eval, hf, Option.bind_eq_bind, Option.bind_some, if_true, Option.some.injEq,
      decide_eq_false_iff_not] at h
    rw [hstop env hag] at h
    rw [cLoop_nil _ _ _ h]
    rfl
  | go env env1 env2 env3 t1 t2 h hb hnext hr ih =>
    simp only [condVal, CSem.eval, hf, Option.bind_eq_bind, Option.bind_some, if_true, Option.some.injEq,
      decide_eq_true_eq] at h
    rw [hstop env hag] at h
    obtain ⟨r1, r2, r3⟩ := hR env t1 env1 hb
    rw [hn env1] at hnext
    simp only [Option.some.injEq] at hnext
    have hag2 : ∀ x, ¬ A x → x ≠ e.name → env2 x = base x := by
      intro x hx hne
      rw [← hnext]
      simp only [upd, hne, if_false]
      rw [r2 x hx, hag x hx hne]
    obtain ⟨i1, i2, i3⟩ := ih hag2
    have henv2 : env2 e.name = env e.name + e.incr := by
      rw [← hnext]
      simp only [upd, if_true]
      rw [r2 e.name hA]
    refine ⟨?_, i2, ?_⟩
    · rw [List.map_append, i1, henv2, cLoop_cons _ _ _ h hincr, List.flatMap_cons]
      congr 1
      have hbase : es.map (loopAt env) = es.map (loopAt base) := by
        apply loopAt_congr
        intro x hx v hv
        obtain ⟨g1, g2⟩ := hdep x (by simp [hx]) v hv
        exact hag v g1 fun he => g2 e (by simp) he.symm
      rw [← hbase, ← r1, List.map_map]
      apply List.map_congr_left
      intro y hy
      simp only [indices, List.map_cons, Function.comp_apply, List.cons.injEq, and_true]
      exact r3 y hy e.name hA fun z hz he => hname (List.mem_map.mpr ⟨z, hz, he⟩)
    · intro y hy x hx hz
      rcases List.mem_append.mp hy with hy | hy
      · rw [r3 y hy x hx fun z hz' => hz z (by simp [hz'])]
        exact hag x hx fun he => hz e (by simp) he.symm
      · exact i3 y hy x hx hz

theorem for_faithful (A : String → Prop) (h : Header) (e : Entry) (hh : HeadIs h e) (es : List Entry)
    (hreg : Regular A (e :: es)) (R : Env → List Env → Env → Prop) (hR : Faithful A es R) :
    Faithful A (e :: es) (ForExec h R) := by
  obtain ⟨type, init, f, h1, h2, h3, h4, h5⟩ := hh.facts
  rintro env t env' ⟨name, type', init', cond, v, env1, g1, g2, g3, g4, rfl⟩
  rw [h1] at g1
  simp only [Init.decls.injEq, List.cons.injEq, Prod.mk.injEq, Option.some.injEq, and_true] at g1
  obtain ⟨rfl, rfl, rfl⟩ := g1
  rw [h2] at g2
  simp only [Option.some.injEq] at g2
  subst g2
  rw [h3] at g3
  simp only [Option.some.injEq] at g3
  subst g3
  obtain ⟨i1, i2, i3⟩ := iter_faithful A e es hreg R hR f h.next h4 h5 env _ t env1 g4
    (fun x _ hne => by simp [upd, hne])
  refine ⟨?_, ?_, i3⟩
  · rw [i1]
    simp [upd, cNest, loopAt]
  · intro x hx
    simp only [upd]
    split
    · rename_i he; rw [he]
    · rename_i hne; exact i2 x hx hne

theorem for_total (A : String → Prop) (h : Header) (e : Entry) (hh : HeadIs h e) (es : List Entry)
    (hreg : Regular A (e :: es)) (R : Env → List Env → Env → Prop) (hR : Faithful A es R) (hT : Total R) :
    Total (ForExec h R) := by
  obtain ⟨type, init, f, h1, h2, h3, h4, h5⟩ := hh.facts
  obtain ⟨hnd, hpos, hdep⟩ := hreg
  obtain ⟨hincr, hA⟩ := hpos e (by simp)
  have key : ∀ n : Nat, ∀ env : Env, (e.stop.eval env - env e.name).toNat = n →
      ∃ t env', Iter (.bin "<" (.id e.name) f) h.next R env t env' := by
    intro n
    induction n using Nat.strong_induction_on with
    | _ n ih =>
      intro env hm
      by_cases hlt : env e.name < e.stop.eval env
      · obtain ⟨t1, env1, hb⟩ := hT env
        obtain ⟨_, r2, _⟩ := hR env t1 env1 hb
        have hs : e.stop.eval (upd env1 e.name (env1 e.name + e.incr)) = e.stop.eval env := by
          apply Sym.eval_congr
          intro x hx
          obtain ⟨g1, g2⟩ := hdep e (by simp) x (Or.inr hx)
          have : x ≠ e.name := fun he => g2 e (by simp) he.symm
          simp only [upd, this, if_false]
          exact r2 x g1
        have hnm : (upd env1 e.name (env1 e.name + e.incr)) e.name = env e.name + e.incr := by
          simp only [upd, if_true]
          rw [r2 e.name hA]
        obtain ⟨t2, env3, hr⟩ := ih ((e.stop.eval env - (env e.name + e.incr)).toNat) (by rw [← hm]; omega) (upd env1 e.name (env1 e.name + e.incr)) (by rw [hs, hnm])
        refine ⟨t1 ++ t2, env3, .go env env1 _ env3 t1 t2 ?_ hb (h5 env1) hr⟩
        simp [condVal, CSem.eval, h4, hlt]
      · exact ⟨[], env, .stop env (by simp only [condVal, CSem.eval, h4, Option.bind_eq_bind, Option.bind_some, if_true, hlt, decide_false])⟩
  intro env
  obtain ⟨t, env1, hit⟩ := key _ (upd env e.name (e.start.eval env)) rfl
  exact ⟨t, _, e.name, type, init, _, e.start.eval env, env1, h1, h2, h3 env, hit, rfl⟩

/-- The constants of all heads are decimal. -/
inductive PlainHeads : Stmt → Prop
  | loop (h b) (hp : plainHead h = true) (hb : PlainHeads b) : PlainHeads (.loop h b)
  | assign (op lv rv) : PlainHeads (.assign op lv rv)
  | pragma : PlainHeads .pragma
  | compound (items) (h : ∀ s ∈ items, PlainHeads s) : PlainHeads (.compound items)

theorem execList_pragmas (ps : List Stmt) (hp : ∀ p ∈ ps, p = .pragma) (h : Header) (b : Stmt) (all : List Stmt) :
    ExecList (ps ++ [.loop h b]) all = ForExec h (Exec b) := by
  induction ps with
  | nil => simp [ExecList]
  | cons p ps ih =>
    have := hp p (by simp)
    subst this
    simp only [List.cons_append, ExecList]
    exact ih fun p hp' => hp p (by simp [hp'])

theorem execList_simple (items all : List Stmt) (hs : ∀ s ∈ items, Simple s) :
    ExecList items all = fun env t env' => (∀ s ∈ all, ∀ h b, s ≠ .loop h b) ∧ LeafExec (.compound all) env t env' := by
  induction items with
  | nil => simp [ExecList]
  | cons x rest ih =>
    cases hs x (by simp) with
    | pragma =>
      simp only [ExecList]
      exact ih fun y hy => hs y (by simp [hy])
    | assign op lv rv _ _ => simp [ExecList]

theorem pBody_loop_ok {h : Header} {body : Stmt} {s s' : St} (hok : pBody (.loop h body) s = .ok s') :
    ∃ e, pHeader h = .ok e ∧ pBody body { s with loops := s.loops ++ [e] } = .ok s' := by
  unfold pBody at hok
  split at hok
  · cases hok
  · rename_i s1 he
    obtain ⟨e, h1, rfl, _⟩ := enter_body he
    exact ⟨e, h1, hok⟩

theorem assigned_congr {s s' : Stmt} (h : assigns s = assigns s') : Assigned s = Assigned s' := by
  funext x
  simp only [Assigned, h]

/-- The recorded loops describe the executions. -/
theorem nest_exec (st : Stmt) (hn : Nest st) (hp : PlainHeads st) (s s' : St) (hok : pBody st s = .ok s') :
    ∃ es, s'.loops = s.loops ++ es ∧
      (Regular (Assigned st) es → Faithful (Assigned st) es (Exec st) ∧ Total (Exec st)) := by
  induction hn generalizing s with
  | loop h h' b' hd hb ih =>
    cases hp with
    | loop _ _ hp1 hp2 =>
      obtain ⟨e, h1, h2⟩ := pBody_loop_ok hok
      obtain ⟨es, g1, g2⟩ := ih hp2 _ h2
      refine ⟨e :: es, by rw [g1]; simp, fun hreg => ?_⟩
      have hA : Assigned (.loop h (.loop h' b')) = Assigned (.loop h' b') := assigned_congr (by simp [assigns])
      rw [hA] at hreg ⊢
      obtain ⟨k1, k2⟩ := g2 hreg.tail
      have hE : Exec (.loop h (.loop h' b')) = ForExec h (Exec (.loop h' b')) := by rw [Exec]
      rw [hE]
      exact ⟨for_faithful _ h e (head_is h e h1 hp1) es hreg _ k1, for_total _ h e (head_is h e h1 hp1) es hreg _ k1 k2⟩
  | assign h op lv rv hd hs =>
    cases hp with
    | loop _ _ hp1 hp2 =>
      obtain ⟨e, h1, h2⟩ := pBody_loop_ok hok
      unfold pBody at h2
      obtain ⟨b, _, h3⟩ := bind_ok h2
      simp only [Except.ok.injEq] at h3
      refine ⟨[e], by rw [← h3], fun hreg => ?_⟩
      have hA : Assigned (.loop h (.assign op lv rv)) = Assigned (.assign op lv rv) := assigned_congr (by simp [assigns])
      rw [hA] at hreg ⊢
      have hE : Exec (.loop h (.assign op lv rv)) = ForExec h (LeafExec (.assign op lv rv)) := by
        rw [Exec, Exec]
      rw [hE]
      exact ⟨for_faithful _ h e (head_is h e h1 hp1) [] hreg _ (leaf_faithful _),
        for_total _ h e (head_is h e h1 hp1) [] hreg _ (leaf_faithful _) (leaf_total _)⟩
  | block h ps h' b' hd hps hb ih =>
    cases hp with
    | loop _ _ hp1 hp2 =>
      cases hp2 with
      | compound _ hp3 =>
        obtain ⟨e, h1, h2⟩ := pBody_loop_ok hok
        have h3 : pBody (.loop h' b') { s with loops := s.loops ++ [e] } = .ok s' := by
          simp only [pBody] at h2
          rw [pNested_pragmas ps hps] at h2
          simp only [pNested] at h2
          simpa only [pBody] using h2
        obtain ⟨es, g1, g2⟩ := ih (hp3 _ (by simp)) _ h3
        refine ⟨e :: es, by rw [g1]; simp, fun hreg => ?_⟩
        have hA : Assigned (.loop h (.compound (ps ++ [.loop h' b']))) = Assigned (.loop h' b') := by
          apply assigned_congr
          simp only [assigns]
          rw [assignsList_append, assignsList_none ps]
          · simp [assignsList, assigns]
          · intro p hp
            rw [hps p hp]
            simp [assigns]
        rw [hA] at hreg ⊢
        obtain ⟨k1, k2⟩ := g2 hreg.tail
        have hE : Exec (.loop h (.compound (ps ++ [.loop h' b']))) = ForExec h (Exec (.loop h' b')) := by
          have e1 : Exec (.compound (ps ++ [.loop h' b'])) = ExecList (ps ++ [.loop h' b']) (ps ++ [.loop h' b']) := by
            rw [Exec]
          have e2 : Exec (.loop h' b') = ForExec h' (Exec b') := by rw [Exec]
          rw [e2, ← execList_pragmas ps hps h' b' (ps ++ [.loop h' b']), ← e1, Exec]
        rw [hE]
        exact ⟨for_faithful _ h e (head_is h e h1 hp1) es hreg _ k1, for_total _ h e (head_is h e h1 hp1) es hreg _ k1 k2⟩
  | leaf h items hd hne hs =>
    cases hp with
    | loop _ _ hp1 hp2 =>
      obtain ⟨e, h1, h2⟩ := pBody_loop_ok hok
      have h3 : s'.loops = s.loops ++ [e] := by
        simp only [pBody] at h2
        rw [pNested_simple items hs] at h2
        simp only [List.isEmpty_iff, hne, if_false] at h2
        obtain ⟨b, _, h3⟩ := bind_ok h2
        simp only [Except.ok.injEq] at h3
        rw [← h3]
      refine ⟨[e], h3, fun hreg => ?_⟩
      have hA : Assigned (.loop h (.compound items)) = Assigned (.compound items) := assigned_congr (by rw [assigns])
      rw [hA] at hreg ⊢
      have hE : Exec (.loop h (.compound items)) = ForExec h (LeafExec (.compound items)) := by
        have e1 : Exec (.compound items) = ExecList items items := by rw [Exec]
        rw [Exec, e1, execList_simple items items hs]
        congr 1
        funext env t env'
        apply propext
        constructor
        · exact fun g => g.2
        · intro g
          refine ⟨fun x hx hh b he => ?_, g⟩
          have := hs x hx
          rw [he] at this
          cases this
      rw [hE]
      exact ⟨for_faithful _ h e (head_is h e h1 hp1) [] hreg _ (leaf_faithful _),
        for_total _ h e (head_is h e h1 hp1) [] hreg _ (leaf_faithful _) (leaf_total _)⟩

/-! ### C46 -/

/-- C46: a loop head is accepted if and only if it is of the form `for (type n = e; n < f; ++n)`, `n++` or `n += number`,
with sums, differences and products `e` and `f`. -/
theorem C46_accepted_heads (h : Header) : (∃ e, pHeader h = .ok e) ↔ Head h := pHeader_iff h

/-- C46, partial: every execution of an accepted loop nest runs through exactly the index tuples of the recorded loops in
their order, and such an execution exists. Missing (hypotheses): octal constants, increments of zero, assignments to
counters or bounds in the body, see the negations; bounds that depend on outer counters, which later parts of Kerncraft do
not support either. -/
theorem C46_iterations_partial (items : List Stmt) (r : Result) (h : processCode items = .ok r) (hd : Header) (b : Stmt)
    (hl : .loop hd b ∈ items) (hp : PlainHeads (.loop hd b)) (hreg : Regular (Assigned (.loop hd b)) r.st.loops) (env : Env) :
    (∃ t env', Exec (.loop hd b) env t env') ∧
    ∀ t env', Exec (.loop hd b) env t env' → t.map (indices r.st.loops) = cNest (r.st.loops.map (loopAt env)) := by
  obtain ⟨ds, ps, hd', b', ss, rfl, h1, h2, _, h4, _⟩ := processCode_ok items r h
  have heq : hd = hd' ∧ b = b' := by
    simp only [List.mem_append, List.mem_map, List.mem_singleton] at hl
    rcases hl with ((⟨d, _, hl⟩ | hl) | hl) | hl
    · cases hl
    · cases h1 _ hl
    · cases hl; exact ⟨rfl, rfl⟩
    · cases h2 _ hl
  obtain ⟨rfl, rfl⟩ := heq
  obtain ⟨es, g1, g2⟩ := nest_exec _ ((pFor_iff _ _).mp ⟨_, h4⟩) hp _ r.st h4
  simp only [List.nil_append] at g1
  rw [g1] at hreg ⊢
  obtain ⟨k1, k2⟩ := g2 hreg
  exact ⟨k2 env, fun t env' ht => (k1 env t env' ht).1⟩

/-- `for (int j = 1; j < M - 1; j += 2) { #pragma … for (int i = 0; i < N; ++i) a[j][i] = s; }` -/
def nestStmt : Stmt :=
  .loop ⟨.decls [("j", ["int"], some (.const ['1']))], some (.bin "<" (.id "j") (.bin "-" (.id "M") (.const ['1']))),
      .assign "+=" (.id "j") (.const ['2'])⟩
    (.compound [.pragma, .loop simpleHead (.assign "=" (.ref (.ref (.id "a") (.id "j")) (.id "i")) (.id "s"))])

/-- It meets the hypotheses of `C46_iterations_partial`. -/
example : ∃ r, processCode [nestStmt] = .ok r ∧ r.st.loops = [⟨"j", .int 1, .sub (.sym "M") (.int 1), 2⟩, ⟨"i", .int 0, .sym "N", 1⟩] ∧
    PlainHeads nestStmt ∧ Regular (Assigned nestStmt) r.st.loops := by
  have h : (processCode [nestStmt]).toOption.map (fun r => r.st.loops) =
      some [⟨"j", .int 1, .sub (.sym "M") (.int 1), 2⟩, ⟨"i", .int 0, .sym "N", 1⟩] := by decide +kernel
  cases hp : processCode [nestStmt] with
  | error e => rw [hp] at h; cases h
  | ok r =>
    rw [hp] at h
    simp only [Except.toOption, Option.map_some, Option.some.injEq] at h
    refine ⟨r, rfl, h, ?_, ?_⟩
    · refine .loop _ _ (by decide +kernel) (.compound _ fun s hs => ?_)
      simp only [List.mem_cons, List.not_mem_nil, or_false] at hs
      rcases hs with rfl | rfl
      · exact .pragma
      · exact .loop _ _ (by decide +kernel) (.assign _ _ _)
    · rw [h]
      have hA : ∀ x, ¬ Assigned nestStmt x := by
        rintro x ⟨a, ha, he⟩
        simp only [nestStmt, assigns, assignsList, List.append_nil, List.nil_append, List.mem_singleton] at ha
        subst ha
        cases he
      refine ⟨by decide, fun e he => ⟨?_, hA _⟩, fun e he v hv => ⟨hA v, ?_⟩⟩
      · simp only [List.mem_cons, List.not_mem_nil, or_false] at he
        rcases he with rfl | rfl <;> decide
      · simp only [List.mem_cons, List.not_mem_nil, or_false] at he
        rcases he with rfl | rfl
        · simp only [Sym.syms, List.not_mem_nil, List.append_nil, List.mem_singleton, false_or] at hv
          subst hv
          decide
        · simp only [Sym.syms, List.not_mem_nil, List.mem_singleton, false_or] at hv
          subst hv
          decide

/-! ### Counterexamples -/

/-- `for (int i = 0; i < 010; ++i)` -/
def octalHead : Header :=
  ⟨.decls [("i", ["int"], some (.const ['0']))], some (.bin "<" (.id "i") (.const ['0', '1', '0'])), .un "++" (.id "i")⟩

/-- `for (int i = 0; i < 010; ++i) a[i] = s;` -/
def octalLoop : Stmt :=
  .loop octalHead
    (.assign "=" (.ref (.id "a") (.id "i")) (.id "s"))

/-- C46, negation: the bound `010` is recorded as ten iterations, every execution has eight. -/
theorem C46_negation_octal : ∃ r, processCode [octalLoop] = .ok r ∧ ∀ env,
    (cNest (r.st.loops.map (loopAt env))).length = 10 ∧ (∃ t env', Exec octalLoop env t env') ∧
    ∀ t env', Exec octalLoop env t env' → t.length = 8 := by
  have h : (processCode [octalLoop]).toOption.map (fun r => r.st.loops) = some [⟨"i", .int 0, .int 10, 1⟩] := by
    decide +kernel
  cases hp : processCode [octalLoop] with
  | error e => rw [hp] at h; cases h
  | ok r =>
    rw [hp] at h
    simp only [Except.toOption, Option.map_some, Option.some.injEq] at h
    refine ⟨r, rfl, fun env => ⟨?_, ?_⟩⟩
    · rw [h]
      simp [loopAt, Sym.eval, cNest, cLoop]
    · have hA : ∀ x, ¬ Assigned (.assign "=" (.ref (.id "a") (.id "i")) (.id "s")) x := by
        rintro x ⟨a, ha, he⟩
        simp only [assigns, List.mem_singleton] at ha
        subst ha
        cases he
      have hh : HeadIs octalHead ⟨"i", .int 0, .int 8, 1⟩ := by
        refine ⟨["int"], .const ['0'], .const ['0', '1', '0'], rfl, rfl, fun env => ?_, fun env => ?_, fun env => ?_⟩
        · have : constVal ['0'] = some 0 := by decide
          simp [CSem.eval, this, Sym.eval]
        · have : constVal ['0', '1', '0'] = some 8 := by decide
          simp [CSem.eval, this, Sym.eval]
        · simp [octalHead, nextEnv]
      have hreg : Regular (Assigned (.assign "=" (.ref (.id "a") (.id "i")) (.id "s"))) [⟨"i", .int 0, .int 8, 1⟩] := by
        refine ⟨by decide, ?_, ?_⟩
        · intro e he
          simp only [List.mem_singleton] at he
          subst he
          exact ⟨by decide, hA _⟩
        · intro e he v hv
          simp only [List.mem_singleton] at he
          subst he
          simp [Sym.syms] at hv
      have k1 := for_faithful _ _ _ hh [] hreg _ (leaf_faithful _)
      have k2 := for_total _ _ _ hh [] hreg _ (leaf_faithful _) (leaf_total _)
      have hE : Exec octalLoop = ForExec octalHead (LeafExec (.assign "=" (.ref (.id "a") (.id "i")) (.id "s"))) := by
        unfold octalLoop
        rw [Exec, Exec]
      rw [hE]
      refine ⟨k2 env, fun t env' ht => ?_⟩
      have := congrArg List.length (k1 env t env' ht).1
      simpa [loopAt, Sym.eval, cNest, cLoop] using this

/-- `for (int i = 0; i < N; i += 0)` -/
def zeroHead : Header :=
  ⟨.decls [("i", ["int"], some (.const ['0']))], some (.bin "<" (.id "i") (.id "N")), .assign "+=" (.id "i") (.const ['0'])⟩

/-- `for (int i = 0; i < N; i += 0) a[i] = s;` -/
def zeroLoop : Stmt :=
  .loop zeroHead
    (.assign "=" (.ref (.id "a") (.id "i")) (.id "s"))

/-- C46, negation: an increment of zero is accepted, but the loop never ends. -/
theorem C46_negation_zero : (∃ r, processCode [zeroLoop] = .ok r) ∧
    ∀ env, 0 < env "N" → ¬ ∃ t env', Exec zeroLoop env t env' := by
  constructor
  · have h : (processCode [zeroLoop]).toOption.isSome = true := by decide +kernel
    cases hp : processCode [zeroLoop] with
    | error e => rw [hp] at h; cases h
    | ok r => exact ⟨r, rfl⟩
  · rintro env hN ⟨t, env', h⟩
    have hE : Exec zeroLoop = ForExec zeroHead (LeafExec (.assign "=" (.ref (.id "a") (.id "i")) (.id "s"))) := by
      unfold zeroLoop
      rw [Exec, Exec]
    rw [hE] at h
    have hz : constVal ['0'] = some 0 := by decide
    obtain ⟨name, type, init, cond, v, env1, g1, g2, g3, g4, _⟩ := h
    simp only [zeroHead, Init.decls.injEq, List.cons.injEq, Prod.mk.injEq, Option.some.injEq, and_true] at g1 g2 g4
    obtain ⟨rfl, rfl, rfl⟩ := g1
    subst g2
    simp only [CSem.eval, hz, Option.map_some, Option.some.injEq] at g3
    have key : ∀ e t e', Iter (.bin "<" (.id "i") (.id "N")) (.assign "+=" (.id "i") (.const ['0']))
        (LeafExec (.assign "=" (.ref (.id "a") (.id "i")) (.id "s"))) e t e' → e "i" < e "N" → False := by
      intro e t e' hit
      induction hit with
      | stop e h =>
        intro hlt
        simp [condVal, CSem.eval] at h
        omega
      | go e e1 e2 e3 t1 t2 h hb hn hr ih =>
        intro hlt
        have hA : ∀ x, e1 x = e x := by
          intro x
          apply hb.2
          rintro ⟨a, ha, he⟩
          simp only [assigns, List.mem_singleton] at ha
          subst ha
          cases he
        apply ih
        simp [nextEnv, CSem.eval, hz] at hn
        rw [← hn]
        simp only [upd, if_true]
        rw [if_neg (by decide), hA, hA]
        exact hlt
    refine key _ _ _ g4 ?_
    subst g3
    simpa [upd] using hN

/-- `for (int i = 0; i < N; ++i) i = s;` -/
def counterLoop : Stmt := .loop simpleHead (.assign "=" (.id "i") (.id "s"))

/-- C46, negation: a body that assigns to the counter is accepted, with executions that skip recorded iterations. -/
theorem C46_negation_counter : ∃ r, processCode [counterLoop] = .ok r ∧ ∃ env t env', Exec counterLoop env t env' ∧
    t.map (indices r.st.loops) ≠ cNest (r.st.loops.map (loopAt env)) := by
  have h : (processCode [counterLoop]).toOption.map (fun r => r.st.loops) = some [⟨"i", .int 0, .sym "N", 1⟩] := by
    decide +kernel
  cases hp : processCode [counterLoop] with
  | error e => rw [hp] at h; cases h
  | ok r =>
    rw [hp] at h
    simp only [Except.toOption, Option.map_some, Option.some.injEq] at h
    have hz : constVal ['0'] = some 0 := by decide
    refine ⟨r, rfl, fun _ => 2, [upd (fun _ => 2) "i" 0], fun _ => 2, ?_, ?_⟩
    · have hE : Exec counterLoop = ForExec simpleHead (LeafExec (.assign "=" (.id "i") (.id "s"))) := by
        unfold counterLoop
        rw [Exec, Exec]
      rw [hE]
      refine ⟨"i", _, _, _, 0, fun x => if x = "i" then 3 else 2, rfl, rfl, by simp [CSem.eval, hz], ?_, ?_⟩
      · have : [upd (fun _ => (2 : Int)) "i" 0] = [upd (fun _ => 2) "i" 0] ++ [] := rfl
        rw [this]
        refine .go _ (fun _ => 2) (fun x => if x = "i" then 3 else 2) _ _ _ ?_ ?_ ?_ (.stop _ ?_)
        · simp [condVal, CSem.eval, upd]
        · refine ⟨rfl, fun x hx => ?_⟩
          have : x ≠ "i" := by
            rintro rfl
            exact hx ⟨("=", .id "i", .id "s"), by simp [assigns], rfl⟩
          simp [upd, this]
        · simp only [simpleHead, nextEnv]
          simp only [if_true, true_or, Option.some.injEq]
          funext x
          simp [upd]
        · simp [condVal, CSem.eval]
      · funext x
        simp only [upd]
        split <;> rfl
    · rw [h]
      simp [loopAt, Sym.eval, cNest, cLoop]

/-! ### C67 -/

mutual

/-- All loop heads. -/
def heads : Stmt → List Header
  | .loop h body => h :: heads body
  | .compound items => headsList items
  | _ => []

/-- All loop heads of a block. -/
def headsList : List Stmt → List Header
  | [] => []
  | s :: rest => heads s ++ headsList rest

end

/-- The type of the counter. -/
def HasType (h : Header) (t : List String) : Prop := ∃ n e, h.init = .decls [(n, t, e)]

theorem head_type {h : Header} (hd : Head h) : ∃ t, HasType h t ∧ declType h = .ok t := by
  obtain ⟨n, type, e, f, next, _, _, _⟩ := hd
  exact ⟨type, ⟨n, some e, rfl⟩, rfl⟩

theorem HasType.unique {h : Header} {t t' : List String} (h1 : HasType h t) (h2 : HasType h t') : t = t' := by
  obtain ⟨n, e, h1⟩ := h1
  obtain ⟨n', e', h2⟩ := h2
  rw [h1] at h2
  simp only [Init.decls.injEq, List.cons.injEq, Prod.mk.injEq, and_true] at h2
  exact h2.2.1

theorem heads_pragmas (ps : List Stmt) (hp : ∀ p ∈ ps, p = .pragma) (rest : List Stmt) :
    headsList (ps ++ rest) = headsList rest := by
  induction ps with
  | nil => rfl
  | cons p ps ih =>
    have := hp p (by simp)
    subst this
    simp only [List.cons_append, headsList, heads, List.nil_append]
    exact ih fun p h => hp p (by simp [h])

theorem types_pragmas (ps : List Stmt) (hp : ∀ p ∈ ps, p = .pragma) (rest : List Stmt) :
    indexTypes (ps ++ rest) = indexTypes rest := by
  induction ps with
  | nil => rfl
  | cons p ps ih =>
    have := hp p (by simp)
    subst this
    simp only [List.cons_append, indexTypes]
    exact ih fun p h => hp p (by simp [h])

theorem simple_heads (items : List Stmt) (hs : ∀ s ∈ items, Simple s) :
    headsList items = [] ∧ indexTypes items = .ok none := by
  induction items with
  | nil => exact ⟨rfl, rfl⟩
  | cons x rest ih =>
    obtain ⟨h1, h2⟩ := ih fun y hy => hs y (by simp [hy])
    cases hs x (by simp) with
    | pragma => simp [headsList, heads, indexTypes, h1, h2]
    | assign op lv rv _ _ => simp [headsList, heads, indexTypes, h1, h2]

/-- The two possible results. -/
def TypesOk (hs : List Header) (r : Except Err (Option (List String))) : Prop :=
  (∃ t, r = .ok (some t) ∧ ∀ h ∈ hs, HasType h t) ∨ (r = .error .value ∧ ¬ ∃ t, ∀ h ∈ hs, HasType h t)

theorem combine_none {h : Header} (hd : Head h) : TypesOk [h] (combineType h (.ok none)) := by
  obtain ⟨t, h1, h2⟩ := head_type hd
  left
  refine ⟨t, by simp [combineType, h2, bind, Except.bind], by simpa using h1⟩

theorem combine_some {h : Header} (hd : Head h) {hs : List Header} (hne : hs ≠ []) {r : Except Err (Option (List String))}
    (hr : TypesOk hs r) : TypesOk (h :: hs) (combineType h r) := by
  obtain ⟨t, h1, h2⟩ := head_type hd
  rcases hr with ⟨t', rfl, h3⟩ | ⟨rfl, h3⟩
  · by_cases he : t = t'
    · subst he
      left
      refine ⟨t, by simp [combineType, h2, bind, Except.bind], ?_⟩
      intro x hx
      rcases List.mem_cons.mp hx with rfl | hx
      · exact h1
      · exact h3 x hx
    · right
      refine ⟨by simp [combineType, h2, bind, Except.bind, he], ?_⟩
      rintro ⟨t2, h4⟩
      obtain ⟨x, hx⟩ := List.exists_mem_of_ne_nil _ hne
      apply he
      rw [h1.unique (h4 h (by simp)), (h3 x hx).unique (h4 x (by simp [hx]))]
  · right
    refine ⟨by simp [combineType, bind, Except.bind], ?_⟩
    rintro ⟨t2, h4⟩
    exact h3 ⟨t2, fun x hx => h4 x (by simp [hx])⟩

theorem nest_types (st : Stmt) (hn : Nest st) : heads st ≠ [] ∧ TypesOk (heads st) (indexType st) := by
  induction hn with
  | loop h h' b' hd hb ih =>
    refine ⟨by simp [heads], ?_⟩
    have e1 : heads (.loop h (.loop h' b')) = h :: heads (.loop h' b') := by rw [heads]
    have e2 : indexType (.loop h (.loop h' b')) = combineType h (indexType (.loop h' b')) := by rw [indexType]
    rw [e1, e2]
    exact combine_some hd ih.1 ih.2
  | assign h op lv rv hd hs =>
    refine ⟨by simp [heads], ?_⟩
    have e1 : heads (.loop h (.assign op lv rv)) = [h] := by simp [heads]
    have e2 : indexType (.loop h (.assign op lv rv)) = combineType h (.ok none) := by simp [indexType]
    rw [e1, e2]
    exact combine_none hd
  | block h ps h' b' hd hps hb ih =>
    refine ⟨by simp [heads], ?_⟩
    have e1 : heads (.loop h (.compound (ps ++ [.loop h' b']))) = h :: heads (.loop h' b') := by
      simp only [heads]
      rw [heads_pragmas ps hps]
      simp [headsList, heads]
    have e2 : indexType (.loop h (.compound (ps ++ [.loop h' b']))) = combineType h (indexType (.loop h' b')) := by
      simp only [indexType]
      rw [types_pragmas ps hps]
      simp [indexTypes]
    rw [e1, e2]
    exact combine_some hd ih.1 ih.2
  | leaf h items hd hne hs =>
    refine ⟨by simp [heads], ?_⟩
    obtain ⟨h1, h2⟩ := simple_heads items hs
    have e1 : heads (.loop h (.compound items)) = [h] := by simp [heads, h1]
    have e2 : indexType (.loop h (.compound items)) = combineType h (.ok none) := by simp [indexType, h2]
    rw [e1, e2]
    exact combine_none hd

/-- C67: the index type of an accepted kernel is `t` if and only if all loop counters are declared with type `t`. -/
theorem C67_index_type (items : List Stmt) (r : Result) (h : processCode items = .ok r) (hd : Header) (b : Stmt)
    (hl : .loop hd b ∈ items) (t : List String) :
    indexType (.loop hd b) = .ok (some t) ↔ ∀ x ∈ heads (.loop hd b), HasType x t := by
  obtain ⟨ds, ps, hd', b', ss, rfl, h1, h2, _, h4, _⟩ := processCode_ok items r h
  have heq : hd = hd' ∧ b = b' := by
    simp only [List.mem_append, List.mem_map, List.mem_singleton] at hl
    rcases hl with ((⟨d, _, hl⟩ | hl) | hl) | hl
    · cases hl
    · cases h1 _ hl
    · cases hl; exact ⟨rfl, rfl⟩
    · cases h2 _ hl
  obtain ⟨rfl, rfl⟩ := heq
  obtain ⟨hne, hok⟩ := nest_types _ ((pFor_iff _ _).mp ⟨_, h4⟩)
  rcases hok with ⟨t', e1, e2⟩ | ⟨e1, e2⟩
  · rw [e1]
    simp only [Except.ok.injEq, Option.some.injEq]
    constructor
    · rintro rfl
      exact e2
    · intro h
      obtain ⟨x, hx⟩ := List.exists_mem_of_ne_nil _ hne
      exact (e2 x hx).unique (h x hx)
  · rw [e1]
    constructor
    · intro h
      cases h
    · intro h
      exact absurd ⟨t, h⟩ e2

/-- C67: otherwise a `ValueError` is raised. -/
theorem C67_differing_types (items : List Stmt) (r : Result) (h : processCode items = .ok r) (hd : Header) (b : Stmt)
    (hl : .loop hd b ∈ items) : indexType (.loop hd b) = .error .value ↔ ¬ ∃ t, ∀ x ∈ heads (.loop hd b), HasType x t := by
  obtain ⟨ds, ps, hd', b', ss, rfl, h1, h2, _, h4, _⟩ := processCode_ok items r h
  have heq : hd = hd' ∧ b = b' := by
    simp only [List.mem_append, List.mem_map, List.mem_singleton] at hl
    rcases hl with ((⟨d, _, hl⟩ | hl) | hl) | hl
    · cases hl
    · cases h1 _ hl
    · cases hl; exact ⟨rfl, rfl⟩
    · cases h2 _ hl
  obtain ⟨rfl, rfl⟩ := heq
  obtain ⟨hne, hok⟩ := nest_types _ ((pFor_iff _ _).mp ⟨_, h4⟩)
  rcases hok with ⟨t', e1, e2⟩ | ⟨e1, e2⟩
  · rw [e1]
    constructor
    · intro h
      cases h
    · intro h
      exact absurd ⟨t', e2⟩ h
  · rw [e1]
    exact ⟨fun _ => e2, fun _ => rfl⟩

/-- Loops with counters of types `int` and `long`. -/
example : (processCode [.loop ⟨.decls [("j", ["long"], some (.const ['0']))], some (.bin "<" (.id "j") (.id "M")), .un "p++" (.id "j")⟩
      (.loop simpleHead (.assign "=" (.id "s") (.id "t")))]).toOption.isSome = true ∧
    (match indexType (.loop ⟨.decls [("j", ["long"], some (.const ['0']))], some (.bin "<" (.id "j") (.id "M")), .un "p++" (.id "j")⟩
      (.loop simpleHead (.assign "=" (.id "s") (.id "t")))) with | .error .value => true | _ => false) = true ∧
    (match indexType nestStmt with | .ok (some t) => t == ["int"] | _ => false) = true := by decide +kernel

end Verif.Parse
