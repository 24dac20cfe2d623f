import Verif.Model.ArrayInit
import Verif.Spec.Elements
import Verif.Props.ForLoops

/-! Lemmas about the initialisation of arrays. -/

namespace Verif.ArrayInit

open Verif.Parse Verif.CSem

/-- Equal values except for the variables in `A`. -/
def Agree (A : String → Prop) (e1 e2 : Env) : Prop := ∀ x, ¬ A x → e1 x = e2 x

/-- Executions from environments that agree: one exists if the other does, and they agree. -/
def Sim (A : String → Prop) (R1 R2 : Env → List Env → Env → Prop) : Prop :=
  ∀ e1 e2, Agree A e1 e2 → ∀ t1 e1', R1 e1 t1 e1' → (∃ t2 e2', R2 e2 t2 e2') ∧
    ∀ t2 e2', R2 e2 t2 e2' → List.Forall₂ (Agree A) t1 t2 ∧ Agree A e1' e2'

theorem eval_agree {A : String → Prop} {e1 e2 : Env} (h : Agree A e1 e2) (e : Expr) (hv : ∀ x ∈ vars e, ¬ A x) :
    eval e1 e = eval e2 e := by
  induction e with
  | id n => simp [eval, h n (hv n (by simp [vars]))]
  | const t => rfl
  | bin op l r ihl ihr =>
    simp only [eval]
    rw [ihl fun x hx => hv x (by simp [vars, hx]), ihr fun x hx => hv x (by simp [vars, hx])]
  | un op e ih =>
    simp only [eval]
    rw [ih fun x hx => hv x (by simp [vars, hx])]
  | ref a s => rfl
  | other => rfl

theorem condVal_agree {A : String → Prop} {e1 e2 : Env} (h : Agree A e1 e2) (e : Expr) (hv : ∀ x ∈ vars e, ¬ A x) :
    condVal e1 e = condVal e2 e := by
  cases e with
  | bin op l r =>
    simp only [condVal]
    rw [eval_agree h l fun x hx => hv x (by simp [vars, hx]), eval_agree h r fun x hx => hv x (by simp [vars, hx])]
  | _ => rfl

theorem upd_agree {A : String → Prop} {e1 e2 : Env} (h : Agree A e1 e2) (n : String) (v : Int) :
    Agree A (upd e1 n v) (upd e2 n v) := by
  intro x hx
  simp only [upd]
  split
  · rfl
  · exact h x hx

/-- Variables of the third part. -/
def nextVars : Next → List String
  | .un _ e => vars e
  | .assign _ l r => vars l ++ vars r
  | .other => []

theorem next_agree {A : String → Prop} {e1 e2 : Env} (h : Agree A e1 e2) (n : Next) (hv : ∀ x ∈ nextVars n, ¬ A x)
    (f1 : Env) (h1 : nextEnv e1 n = some f1) : ∃ f2, nextEnv e2 n = some f2 ∧ Agree A f1 f2 := by
  cases n with
  | un op e =>
    cases e with
    | id m =>
      have hm := h m (hv m (by simp [nextVars, vars]))
      simp only [nextEnv] at h1 ⊢
      split at h1
      · rename_i g; rw [if_pos g]; cases h1
        exact ⟨_, rfl, by rw [hm]; exact upd_agree h _ _⟩
      · rename_i g; rw [if_neg g]
        split at h1
        · rename_i g; rw [if_pos g]; cases h1
          exact ⟨_, rfl, by rw [hm]; exact upd_agree h _ _⟩
        · cases h1
    | _ => cases h1
  | assign op l r =>
    cases l with
    | id m =>
      have hm := h m (hv m (by simp [nextVars, vars]))
      have hr := eval_agree h r fun x hx => hv x (by simp [nextVars, hx])
      simp only [nextEnv] at h1 ⊢
      rw [hr] at h1
      cases he : eval e2 r with
      | none => rw [he] at h1; cases h1
      | some v =>
        rw [he] at h1
        simp only [bind, Option.bind] at h1 ⊢
        rw [hm] at h1
        split at h1
        · rename_i g; rw [if_pos g]; cases h1
          exact ⟨_, rfl, upd_agree h _ _⟩
        · rename_i g; rw [if_neg g]
          split at h1
          · rename_i g; rw [if_pos g]; cases h1
            exact ⟨_, rfl, upd_agree h _ _⟩
          · rename_i g; rw [if_neg g]
            split at h1
            · rename_i g; rw [if_pos g]; cases h1
              exact ⟨_, rfl, upd_agree h _ _⟩
            · cases h1
    | _ => cases h1
  | other => cases h1

theorem leaf_sim (A : String → Prop) (s1 s2 : Stmt) (h1 : ∀ x, Assigned s1 x → A x) (h2 : ∀ x, Assigned s2 x → A x) :
    Sim A (LeafExec s1) (LeafExec s2) := by
  rintro e1 e2 h t1 e1' ⟨rfl, g1⟩
  refine ⟨⟨[e2], e2, rfl, fun _ _ => rfl⟩, ?_⟩
  rintro t2 e2' ⟨rfl, g2⟩
  refine ⟨.cons h .nil, fun x hx => ?_⟩
  rw [g1 x fun g => hx (h1 x g), g2 x fun g => hx (h2 x g), h x hx]

theorem iter_sim (A : String → Prop) (cond : Expr) (next : Next) (hc : ∀ x ∈ vars cond, ¬ A x) (hn : ∀ x ∈ nextVars next, ¬ A x)
    (R1 R2 : Env → List Env → Env → Prop) (hR : Sim A R1 R2) : Sim A (Iter cond next R1) (Iter cond next R2) := by
  intro e1 e2 h t1 e1' hi
  induction hi generalizing e2 with
  | stop env hs =>
    rw [condVal_agree h cond hc] at hs
    refine ⟨⟨[], e2, .stop _ hs⟩, ?_⟩
    intro t2 e2' h2
    cases h2 with
    | stop _ _ => exact ⟨.nil, h⟩
    | go _ _ _ _ _ _ hs' => rw [hs] at hs'; cases hs'
  | go env env1 env2 env3 t1 t2 hs hb hne hr ih =>
    rw [condVal_agree h cond hc] at hs
    obtain ⟨⟨u1, f1, hu⟩, hall⟩ := hR _ _ h _ _ hb
    refine ⟨?_, ?_⟩
    · obtain ⟨-, ha⟩ := hall _ _ hu
      obtain ⟨f2, hf2, ha2⟩ := next_agree ha next hn _ hne
      obtain ⟨⟨u2, f3, hu2⟩, -⟩ := ih _ ha2
      exact ⟨_, _, .go _ _ _ _ _ _ hs hu hf2 hu2⟩
    · intro w e2' hw
      cases hw with
      | stop _ hs' => rw [hs] at hs'; cases hs'
      | go _ g1 g2 _ w1 w2 _ hb' hn' hr' =>
        obtain ⟨k1, k2⟩ := hall _ _ hb'
        obtain ⟨f2, hf2, ha2⟩ := next_agree k2 next hn _ hne
        rw [hn'] at hf2
        cases hf2
        obtain ⟨k3, k4⟩ := (ih _ ha2).2 _ _ hr'
        exact ⟨List.rel_append k1 k3, k4⟩

theorem for_sim (A : String → Prop) (h : Header) (hv : ∀ x ∈ headVars h, ¬ A x) (R1 R2 : Env → List Env → Env → Prop)
    (hR : Sim A R1 R2) : Sim A (ForExec h R1) (ForExec h R2) := by
  rintro e1 e2 ha t1 e1' ⟨name, type, init, cond, v, f1, h1, h2, h3, h4, rfl⟩
  have hi : ∀ x ∈ vars init, ¬ A x := fun x hx => hv x (by simp [headVars, h1, hx])
  have hm : ¬ A name := hv name (by simp [headVars, h1])
  have hc : ∀ x ∈ vars cond, ¬ A x := fun x hx => hv x (by simp [headVars, h2, hx])
  have hn : ∀ x ∈ nextVars h.next, ¬ A x := fun x hx => hv x (by
    simp only [headVars, List.mem_append]
    right
    cases hnx : h.next <;> simpa [nextVars, hnx] using hx)
  rw [eval_agree ha init hi] at h3
  obtain ⟨⟨t2, f2, k1⟩, k2⟩ := iter_sim A cond h.next hc hn R1 R2 hR _ _ (upd_agree ha name v) _ _ h4
  refine ⟨⟨t2, _, name, type, init, cond, v, f2, h1, h2, h3, k1, rfl⟩, ?_⟩
  rintro t2' e2' ⟨name', type', init', cond', v', f2', g1, g2, g3, g4, rfl⟩
  rw [h1] at g1
  rw [h2] at g2
  cases g1
  cases g2
  rw [h3] at g3
  cases g3
  obtain ⟨k3, k4⟩ := k2 _ _ g4
  refine ⟨k3, ?_⟩
  rw [ha name hm]
  exact upd_agree k4 _ _

/-! ### References -/

theorem flat_place (e : Expr) (n : String) (subs : List Expr) (h : flat e = some (n, subs)) (hne : subs ≠ []) :
    ∃ a s, e = .ref a s := by
  cases e with
  | ref a s => exact ⟨a, s, rfl⟩
  | id m => simp [flat] at h; exact absurd h.2 hne
  | _ => simp [flat] at h

theorem exprRefs_iff (e r : Expr) : r ∈ exprRefs e ↔ r ∈ reads e ∧ ∃ a s, r = .ref a s := by
  induction e with
  | id n => simp only [exprRefs, reads, List.not_mem_nil, List.mem_singleton, false_iff, not_and]
            rintro rfl ⟨a, s, h⟩; cases h
  | const t => simp [exprRefs, reads]
  | bin op l r ihl ihr => simp only [exprRefs, reads, List.mem_append, ihl, ihr, or_and_right]
  | un op e ih => simpa [exprRefs, reads] using ih
  | ref a s => simp only [exprRefs, reads, List.mem_singleton]
               constructor
               · rintro rfl; exact ⟨rfl, _, _, rfl⟩
               · exact fun h => h.1
  | other => simp [exprRefs, reads]

theorem assign_refs (op : String) (lv rv : Expr) (hl : Place lv) (r : Expr) :
    r ∈ exprRefs lv ++ exprRefs rv ↔ r ∈ lv :: assignmentReads (op, lv, rv) ∧ ∃ a s, r = .ref a s := by
  have hlv : reads lv = [lv] := by cases hl <;> rfl
  rw [List.mem_append, exprRefs_iff, exprRefs_iff, hlv]
  simp only [assignmentReads, List.mem_cons, List.mem_append, List.not_mem_nil, or_false]
  split <;> simp [or_and_right]

/-- References of simple statements. -/
theorem simple_refs (s : Stmt) (hs : Simple s) (r : Expr) :
    r ∈ stmtRefs s ↔ (∃ a ∈ assigns s, r ∈ a.2.1 :: assignmentReads a) ∧ ∃ a s, r = .ref a s := by
  cases hs with
  | pragma => simp [stmtRefs, assigns]
  | assign op lv rv hl hr =>
    simp only [stmtRefs, assigns, List.mem_singleton, exists_eq_left]
    exact assign_refs op lv rv hl r

theorem list_refs (l : List Stmt) (hs : ∀ s ∈ l, Simple s) (r : Expr) :
    r ∈ listRefs l ↔ (∃ a ∈ assignsList l, r ∈ a.2.1 :: assignmentReads a) ∧ ∃ a s, r = .ref a s := by
  induction l with
  | nil => simp [listRefs, assignsList]
  | cons s l ih =>
    simp only [listRefs, assignsList, List.mem_append, simple_refs s (hs s (by simp)) r,
      ih fun x hx => hs x (by simp [hx])]
    constructor
    · rintro (⟨⟨a, h1, h2⟩, h3⟩ | ⟨⟨a, h1, h2⟩, h3⟩)
      · exact ⟨⟨a, .inl h1, h2⟩, h3⟩
      · exact ⟨⟨a, .inr h1, h2⟩, h3⟩
    · rintro ⟨⟨a, h1 | h1, h2⟩, h3⟩
      · exact .inl ⟨⟨a, h1, h2⟩, h3⟩
      · exact .inr ⟨⟨a, h1, h2⟩, h3⟩

theorem inItems_pragmas (ps : List Stmt) (hp : ∀ p ∈ ps, p = .pragma) (h : Header) (b : Stmt) (rest : List Stmt) :
    inItems (ps ++ .loop h b :: rest) = some (true, (inLoop h b).1, fun y => ps ++ (inLoop h b).2 y :: rest) := by
  induction ps with
  | nil => simp [inItems]
  | cons p ps ih =>
    have := hp p (by simp)
    subst this
    simp only [List.cons_append]
    rw [inItems, ih fun p hp' => hp p (by simp [hp'])]
    · rfl
    · intros; contradiction
    · intros; contradiction

theorem inItems_simple (l : List Stmt) (hs : ∀ s ∈ l, Simple s) : inItems l = none := by
  induction l with
  | nil => simp [inItems]
  | cons s l ih =>
    have hl := ih fun x hx => hs x (by simp [hx])
    cases hs s (by simp) <;> simp [inItems, hl]

/-! ### The initialisation -/

theorem assigns_assignments (v : List Char) (b : Stmt) :
    assigns (assignments v b) = (stmtRefs b).map fun r => ("=", r, .const v) := by
  simp only [assignments, assigns]
  induction stmtRefs b with
  | nil => simp [assignsList]
  | cons r l ih => simp [assignsList, assigns, ih]

theorem exec_assignments (v : List Char) (b : Stmt) : Exec (assignments v b) = LeafExec (assignments v b) := by
  have hnl : ∀ s ∈ (stmtRefs b).map (fun r => Stmt.assign "=" r (.const v)), ∀ h c, s ≠ .loop h c := by
    intro s hs h c e
    obtain ⟨r, -, rfl⟩ := List.mem_map.1 hs
    cases e
  have key : ∀ l all : List Stmt, (∀ s ∈ l, ∃ r, s = Stmt.assign "=" r (.const v)) → (∀ s ∈ all, ∀ h c, s ≠ .loop h c) →
      ExecList l all = LeafExec (.compound all) := by
    intro l all hl hall
    cases l with
    | nil =>
      funext e t e'
      simp only [ExecList, eq_iff_iff, and_iff_right_iff_imp]
      exact fun _ => hall
    | cons s l =>
      obtain ⟨r, rfl⟩ := hl s (by simp)
      funext e t e'
      simp only [ExecList, eq_iff_iff, and_iff_right_iff_imp]
      exact fun _ => hall
  unfold assignments
  rw [Exec]
  exact key _ _ (fun s hs => by obtain ⟨r, -, rfl⟩ := List.mem_map.1 hs; exact ⟨r, rfl⟩) hnl

/-- What the search finds in an accepted nest. -/
theorem nest_init (A : String → Prop) (v : List Char) (st : Stmt) (hn : Nest st) : ∀ h b, st = .loop h b →
    (∀ x ∈ boundVars st, ¬ A x) → (∀ x, Assigned st x → A x) →
    (∃ h' b', (inLoop h b).2 (assignments v (inLoop h b).1) = .loop h' b') ∧
    Sim A (Exec st) (Exec ((inLoop h b).2 (assignments v (inLoop h b).1))) ∧
    assigns ((inLoop h b).2 (assignments v (inLoop h b).1)) = assigns (assignments v (inLoop h b).1) ∧
    ∀ r, r ∈ stmtRefs (inLoop h b).1 ↔ (∃ a ∈ assigns st, r ∈ a.2.1 :: assignmentReads a) ∧ ∃ a s, r = .ref a s := by
  have noAssign : ∀ b : Stmt, (∀ r ∈ stmtRefs b, ∃ a s, r = .ref a s) → ∀ x, ¬ Assigned (assignments v b) x := by
    rintro b hb x ⟨a, ha, hx⟩
    rw [assigns_assignments] at ha
    obtain ⟨r, hr, rfl⟩ := List.mem_map.1 ha
    obtain ⟨p, q, rfl⟩ := hb r hr
    cases hx
  induction hn with
  | loop h h' b' hd hb ih =>
    rintro h1 b1 heq hv hA
    obtain ⟨rfl, rfl⟩ : h = h1 ∧ _ = b1 := by simpa using heq
    have hA' : Assigned (.loop h (.loop h' b')) = Assigned (.loop h' b') := assigned_congr (by simp [assigns])
    rw [hA'] at hA
    obtain ⟨⟨h2, b2, k0⟩, k1, k2, k3⟩ := ih h' b' rfl (fun x hx => hv x (by rw [boundVars]; exact List.mem_append_right _ hx)) hA
    refine ⟨⟨_, _, by simp only [inLoop]; rfl⟩, ?_, ?_, ?_⟩
    · simp only [inLoop]
      have e1 : Exec (.loop h (.loop h' b')) = ForExec h (Exec (.loop h' b')) := by rw [Exec]
      rw [e1, Exec]
      exact for_sim A h (fun x hx => hv x (by rw [boundVars]; exact List.mem_append_left _ hx)) _ _ k1
    · simpa only [inLoop, assigns] using k2
    · intro r
      simp only [inLoop]
      have : assigns (.loop h (.loop h' b')) = assigns (.loop h' b') := by rw [assigns]
      rw [k3 r, this]
  | assign h op lv rv hd hs =>
    rintro h1 b1 heq hv hA
    obtain ⟨rfl, rfl⟩ : h = h1 ∧ _ = b1 := by simpa using heq
    have hrefs : ∀ r, r ∈ stmtRefs (.assign op lv rv) ↔
        (∃ a ∈ assigns (.loop h (.assign op lv rv)), r ∈ a.2.1 :: assignmentReads a) ∧ ∃ a s, r = .ref a s := by
      intro r
      have : assigns (.loop h (.assign op lv rv)) = assigns (.assign op lv rv) := by rw [assigns]
      rw [this]
      exact simple_refs _ hs r
    refine ⟨⟨_, _, by simp only [inLoop]; rfl⟩, ?_, by simp only [inLoop, assigns], by simpa only [inLoop] using hrefs⟩
    simp only [inLoop]
    have e1 : Exec (.loop h (.assign op lv rv)) = ForExec h (LeafExec (.assign op lv rv)) := by rw [Exec, Exec]
    rw [e1, Exec, exec_assignments]
    refine for_sim A h (fun x hx => hv x (by rw [boundVars]; exact List.mem_append_left _ hx)) _ _ (leaf_sim A _ _ ?_ ?_)
    · have hA' : Assigned (.loop h (.assign op lv rv)) = Assigned (.assign op lv rv) := assigned_congr (by simp [assigns])
      rw [← hA']; exact hA
    · exact fun x hx => absurd hx (noAssign _ (fun r hr => ((hrefs r).1 hr).2) x)
  | block h ps h' b' hd hps hb ih =>
    rintro h1 b1 heq hv hA
    obtain ⟨rfl, rfl⟩ : h = h1 ∧ _ = b1 := by simpa using heq
    have ha : assigns (.loop h (.compound (ps ++ [.loop h' b']))) = assigns (.loop h' b') := by
      simp only [assigns]
      rw [assignsList_append, assignsList_none ps]
      · simp [assignsList, assigns]
      · intro p hp
        rw [hps p hp]
        simp [assigns]
    rw [assigned_congr ha] at hA
    have hbv : ∀ x ∈ boundVars (.loop h' b'), ¬ A x := by
      intro x hx
      refine hv x ?_
      rw [boundVars, boundVars]
      refine List.mem_append_right _ ?_
      have : ∀ ps : List Stmt, x ∈ boundVarsList (ps ++ [.loop h' b']) := by
        intro ps
        induction ps with
        | nil => simpa [boundVarsList] using hx
        | cons p ps ih => rw [List.cons_append, boundVarsList]; exact List.mem_append_right _ ih
      exact this ps
    obtain ⟨⟨h2, b2, k0⟩, k1, k2, k3⟩ := ih h' b' rfl hbv hA
    have hin : inLoop h (.compound (ps ++ [.loop h' b'])) =
        ((inLoop h' b').1, fun y => .loop h (.compound (ps ++ [(inLoop h' b').2 y]))) := by
      simp only [inLoop, inItems_pragmas ps hps h' b' []]
    simp only [hin]
    refine ⟨⟨_, _, rfl⟩, ?_, ?_, ?_⟩
    · have e0 : ∀ h' b', Exec (.loop h (.compound (ps ++ [.loop h' b']))) = ForExec h (Exec (.loop h' b')) := by
        intro h' b'
        have e1 : Exec (.compound (ps ++ [.loop h' b'])) = ExecList (ps ++ [.loop h' b']) (ps ++ [.loop h' b']) := by rw [Exec]
        have e2 : Exec (.loop h' b') = ForExec h' (Exec b') := by rw [Exec]
        rw [e2, ← execList_pragmas ps hps h' b' (ps ++ [.loop h' b']), ← e1, Exec]
      rw [k0] at k1 ⊢
      rw [e0, e0]
      exact for_sim A h (fun x hx => hv x (by rw [boundVars]; exact List.mem_append_left _ hx)) _ _ k1
    · rw [← k2]
      simp only [assigns]
      rw [assignsList_append, assignsList_none ps]
      · simp [assignsList]
      · intro p hp
        rw [hps p hp]
        simp [assigns]
    · intro r
      rw [k3 r, ha]
  | leaf h items hd hne hs =>
    rintro h1 b1 heq hv hA
    obtain ⟨rfl, rfl⟩ : h = h1 ∧ _ = b1 := by simpa using heq
    have hin : inLoop h (.compound items) = (.compound items, .loop h) := by simp only [inLoop, inItems_simple items hs]
    have hrefs : ∀ r, r ∈ stmtRefs (.compound items) ↔
        (∃ a ∈ assigns (.loop h (.compound items)), r ∈ a.2.1 :: assignmentReads a) ∧ ∃ a s, r = .ref a s := by
      intro r
      have : assigns (.loop h (.compound items)) = assignsList items := by rw [assigns, assigns]
      rw [this, stmtRefs]
      exact list_refs items hs r
    simp only [hin]
    refine ⟨⟨_, _, rfl⟩, ?_, by simp only [assigns], hrefs⟩
    have e1 : Exec (.loop h (.compound items)) = ForExec h (LeafExec (.compound items)) := by
      have e1 : Exec (.compound items) = ExecList items items := by rw [Exec]
      rw [Exec, e1, execList_simple items items hs]
      congr 1
      funext env t env'
      apply propext
      constructor
      · exact fun g => g.2
      · intro g
        refine ⟨fun x hx hh b he => ?_, g⟩
        have := hs x hx
        rw [he] at this
        cases this
    rw [e1, Exec, exec_assignments]
    refine for_sim A h (fun x hx => hv x (by rw [boundVars]; exact List.mem_append_left _ hx)) _ _ (leaf_sim A _ _ ?_ ?_)
    · have hA' : Assigned (.loop h (.compound items)) = Assigned (.compound items) := assigned_congr (by rw [assigns])
      rw [← hA']; exact hA
    · exact fun x hx => absurd hx (noAssign _ (fun r hr => ((hrefs r).1 hr).2) x)

end Verif.ArrayInit
