import Verif.Lemmas.Constants

/-!
Properties C12 and C13 (constants of a kernel, `kerncraft/kernel.py:248-296`).
-/

namespace Verif.Constants
open Verif.Layout

/-! ## C12 -/

/-- C12 full claim: after any history, substitution uses the constants that are set now. -/
def C12_claim : Prop :=
  ∀ (h : List Call) (e : Sym), (subsConsts (runCalls h) e).1 = substSym (runCalls h).consts e

/-- C12 is false: `set_constant('N', 1); subs_consts(N); set_constant('N', 2); subs_consts(N)` gives 1. -/
theorem C12_negation : ¬ C12_claim := by
  intro h
  have := h [.set (.str "N") (.int 1), .subs (.var "N"), .set (.str "N") (.int 2)] (.var "N")
  revert this
  decide

/-- No constant is written after an expression mentioning it has been substituted since the last
`clear_state`; `seen` are the expressions substituted since then. -/
def Safe : List Sym → List Call → Prop
  | _, [] => True
  | _, .clear :: h => Safe [] h
  | seen, .subs e :: h => Safe (e :: seen) h
  | seen, .set n v :: h =>
    (∀ k x, written (n, v) = some (k, x) → ∀ e ∈ seen, ∀ s ∈ e.free, posInt s ≠ k) ∧ Safe seen h
  | seen, .foreign _ :: h => Safe seen h

theorem safe_invariant (h : List Call) (s : KState) (seen : List Sym) (hs : Safe seen h)
    (hn : NodupKeys s.consts) (hf : CacheFresh s) (hc : ∀ e r, (e, r) ∈ s.cache → e ∈ seen) :
    CacheFresh (h.foldl step s) := by
  induction h generalizing s seen with
  | nil => exact hf
  | cons c h ih =>
    rw [List.foldl_cons]
    cases c with
    | clear =>
      refine ih _ [] hs (by simp [step, NodupKeys]) ?_ ?_
      · intro e r hm; simp [step] at hm
      · intro e r hm; simp [step] at hm
    | subs e =>
      obtain ⟨_, h2, h3⟩ := subsConsts_fresh s hf e
      refine ih _ (e :: seen) hs (by simp only [step]; rw [h3]; exact hn) h2 ?_
      intro x r hm
      rcases cache_subs_mem s e x r hm with rfl | hm
      · simp
      · exact List.mem_cons_of_mem _ (hc x r hm)
    | foreign k =>
      refine ih _ seen hs hn ?_ ?_
      · intro e r hm; exact hf e r (List.mem_of_mem_take hm)
      · intro e r hm; exact hc e r (List.mem_of_mem_take hm)
    | set n v =>
      obtain ⟨hw, hs⟩ := hs
      cases hwr : written (n, v) with
      | none =>
        have : step s (.set n v) = s := by
          cases n <;> cases v <;> simp [written] at hwr <;> rfl
        rw [this]
        exact ih s seen hs hn hf hc
      | some p =>
        obtain ⟨k, x⟩ := p
        have : step s (.set n v) = { s with consts := sortTable (dictSet k x s.consts) } := by
          cases n <;> cases v <;> simp [written] at hwr <;> obtain ⟨rfl, rfl⟩ := hwr <;> rfl
        rw [this]
        have hd := dictSet_nodup k x s.consts hn
        refine ih _ seen hs (sortTable_nodup _ hd) ?_ hc
        intro e r hm
        rw [hf e r hm]
        apply substSym_congr
        intro y hy
        rw [lookup_perm _ _ (sortTable_nodup _ hd) (sortTable_perm _), dictSet_lookup,
          if_neg (hw k x hwr e (hc e r hm) y hy)]

/-- C12 partial: substitution reflects the current constants for every history in which no constant is
written after an expression mentioning it was substituted, unless `clear_state` was called in between.
Missing: histories that overwrite a constant without `clear_state`, for which the claim is false. -/
theorem C12_fresh_partial (h : List Call) (hs : Safe [] h) (e : Sym) :
    (subsConsts (runCalls h) e).1 = substSym (runCalls h).consts e :=
  (subsConsts_fresh _ (safe_invariant h ⟨[], []⟩ [] hs (by simp [NodupKeys])
    (by intro e r hm; simp at hm) (by intro e r hm; simp at hm)) e).1

/-- C12 partial: the pattern used by the command line front end: whatever happened before,
`clear_state`, then setting constants, then only substitutions, is fresh. -/
theorem C12_clear_set_use_partial (before : List Call) (sets : List (NameArg × ValArg))
    (uses : List Sym) (e : Sym) :
    let h := before ++ [.clear] ++ sets.map (fun c => .set c.1 c.2) ++ uses.map .subs
    (subsConsts (runCalls h) e).1 = substSym (setMany [] sets) e := by
  intro h
  have hsets : ∀ (cs : List (NameArg × ValArg)) (t : Table),
      (cs.map (fun c => Call.set c.1 c.2)).foldl step ⟨t, []⟩ = ⟨setMany t cs, []⟩ := by
    intro cs
    induction cs with
    | nil => intro t; rfl
    | cons c cs ih =>
      intro t
      rw [List.map_cons, List.foldl_cons, setMany]
      simp only [step]
      split
      · exact ih t
      · rename_i t' h; exact ih t'
  have huses : ∀ (es : List Sym) (s : KState), CacheFresh s →
      CacheFresh ((es.map Call.subs).foldl step s) ∧
        ((es.map Call.subs).foldl step s).consts = s.consts := by
    intro es
    induction es with
    | nil => intro s hs; exact ⟨hs, rfl⟩
    | cons x es ih =>
      intro s hs
      rw [List.map_cons, List.foldl_cons]
      obtain ⟨_, h2, h3⟩ := subsConsts_fresh s hs x
      obtain ⟨h4, h5⟩ := ih (step s (.subs x)) h2
      exact ⟨h4, by rw [h5]; exact h3⟩
  have hrun : runCalls h = (uses.map Call.subs).foldl step ⟨setMany [] sets, []⟩ := by
    simp only [h, runCalls, List.foldl_append]
    congr 1
    exact hsets sets []
  obtain ⟨h4, h5⟩ := huses uses ⟨setMany [] sets, []⟩ (by intro e r hm; simp at hm)
  rw [hrun, (subsConsts_fresh _ h4 e).1, h5]

/-- The value of a constant after one more call: a name that is set has the new value, and `clear_state` removes all. -/
def setNow (k : Key) (v : Option Int) : Call → Option Int
  | .clear => none
  | .set (.str s) (.int x) => if posInt s = k then some x else v
  | .set (.symbol k') (.int x) => if k' = k then some x else v
  | _ => v

theorem consts_now (k : Key) (h : List Call) (s : KState) (hn : NodupKeys s.consts) :
    (h.foldl step s).consts.lookup k = h.foldl (setNow k) (s.consts.lookup k) := by
  induction h generalizing s with
  | nil => rfl
  | cons c h ih =>
    rw [List.foldl_cons, List.foldl_cons]
    have hstep : NodupKeys (step s c).consts ∧ (step s c).consts.lookup k = setNow k (s.consts.lookup k) c := by
      have hset : ∀ k' x, NodupKeys (sortTable (dictSet k' x s.consts)) ∧
          (sortTable (dictSet k' x s.consts)).lookup k = if k' = k then some x else s.consts.lookup k := by
        intro k' x
        have hd := dictSet_nodup k' x s.consts hn
        refine ⟨sortTable_nodup _ hd, ?_⟩
        rw [lookup_perm _ _ (sortTable_nodup _ hd) (sortTable_perm _), dictSet_lookup]
        by_cases e : k' = k
        · simp [e]
        · simp [e, Ne.symm e]
      have hsubs : ∀ e, (subsConsts s e).2.consts = s.consts := by
        intro e
        unfold subsConsts
        split <;> rfl
      cases c with
      | clear => exact ⟨by simp [step, NodupKeys], rfl⟩
      | subs e => simp only [step, hsubs, setNow]; exact ⟨hn, trivial⟩
      | foreign n => exact ⟨hn, rfl⟩
      | set n v =>
        cases n <;> cases v <;> simp only [step, setConstant, setNow] <;>
          first | exact hset _ _ | exact ⟨hn, trivial⟩
    rw [ih _ hstep.1, hstep.2]

theorem substSym_value (t : Table) (e : Sym) (env : String → Option Int) :
    (substSym t e).eval env = e.eval fun s => (t.lookup (posInt s)).or (env s) := by
  induction e with
  | num n => rfl
  | var s =>
    simp only [substSym, Sym.eval]
    cases t.lookup (posInt s) <;> rfl
  | add a b iha ihb => simp only [substSym, Sym.eval, iha, ihb]
  | sub a b iha ihb => simp only [substSym, Sym.eval, iha, ihb]
  | mul a b iha ihb => simp only [substSym, Sym.eval, iha, ihb]

/-- C12 partial: after the same histories, the result has the value that the expression has if each constant set since the last
`clear_state` stands for the value it was set to last, and all other names for what the environment gives them. -/
theorem C12_values_partial (h : List Call) (hs : Safe [] h) (e : Sym) (env : String → Option Int) :
    (subsConsts (runCalls h) e).1.eval env = e.eval fun s => (h.foldl (setNow (posInt s)) none).or (env s) := by
  rw [C12_fresh_partial h hs e, substSym_value]
  congr 1
  funext s
  rw [runCalls, consts_now _ _ _ (by simp [NodupKeys])]
  rfl

example : let h : List Call := [.set (.str "N") (.int 1), .clear, .set (.str "N") (.int 5), .set (.str "N") (.int 3)]
    Safe [] h ∧ (subsConsts (runCalls h) (.sub (.var "N") (.var "i"))).1.eval (fun _ => some 1) = some 2 := by
  refine ⟨by simp [Safe], by decide⟩

theorem cache_once (h : List Call) : ∀ e r, (e, r) ∈ (runCalls h).cache →
    ∃ pre post, h = pre ++ post ∧ .clear ∉ post ∧ r = substSym (runCalls pre).consts e := by
  induction h using List.reverseRecOn with
  | nil => intro e r hm; simp [runCalls] at hm
  | append_singleton h c ih =>
    intro e r hm
    have hr : runCalls (h ++ [c]) = step (runCalls h) c := by simp [runCalls]
    rw [hr] at hm
    have old : (e, r) ∈ (runCalls h).cache → c ≠ .clear →
        ∃ pre post, h ++ [c] = pre ++ post ∧ .clear ∉ post ∧ r = substSym (runCalls pre).consts e := by
      intro h1 hc
      obtain ⟨pre, post, h2, h3, h4⟩ := ih e r h1
      refine ⟨pre, post ++ [c], by rw [h2]; simp, ?_, h4⟩
      simp only [List.mem_append, List.mem_singleton, not_or]
      exact ⟨h3, fun h => hc h.symm⟩
    cases c with
    | clear => simp [step] at hm
    | foreign k => exact old (List.mem_of_mem_take hm) (by simp)
    | set n v =>
      refine old ?_ (by simp)
      simp only [step] at hm
      split at hm <;> exact hm
    | subs x =>
      simp only [step, subsConsts] at hm
      split at hm
      · rename_i r' hl
        rcases List.mem_cons.mp hm with h1 | h1
        · obtain ⟨rfl, rfl⟩ := Prod.mk.inj h1
          exact old (lookup_mem _ _ _ hl) (by simp)
        · exact old (List.mem_of_mem_filter h1) (by simp)
      · rcases List.mem_cons.mp (List.mem_of_mem_take hm) with h1 | h1
        · obtain ⟨rfl, rfl⟩ := Prod.mk.inj h1
          exact ⟨h, [.subs e], rfl, by simp, rfl⟩
        · exact old h1 (by simp)

/-- C12 partial, for all histories: what is returned is the substitution with the constants of now or of an earlier time since the last `clear_state`, never
with those from before it. Missing: that it is now (`C12_negation`). -/
theorem C12_since_clear_partial (h : List Call) (e : Sym) :
    ∃ pre post, h = pre ++ post ∧ .clear ∉ post ∧ (subsConsts (runCalls h) e).1 = substSym (runCalls pre).consts e := by
  unfold subsConsts
  split
  · rename_i r hl
    exact cache_once h e r (lookup_mem _ _ _ hl)
  · exact ⟨h, [], by simp, by simp, rfl⟩

/-- After `clear_state` the value of before is never seen again. -/
example : (subsConsts (runCalls [.set (.str "N") (.int 1), .subs (.var "N"), .clear, .set (.str "N") (.int 2), .subs (.var "N"), .set (.str "N") (.int 3)])
    (.var "N")).1 = .num 2 := by decide

example : Safe [] [.set (.str "N") (.int 1), .subs (.var "N"), .set (.str "M") (.int 2),
    .subs (.mul (.var "N") (.var "M")), .clear, .set (.str "N") (.int 3)] := by
  simp [Safe, written, Sym.free, posInt]
example : substSym (setMany [] [(.str "N", .int 5), (.str "N", .int 3)]) (.mul (.var "N") (.var "M"))
    = .mul (.num 3) (.var "M") := by decide

/-! ## C13 -/

/-- C13: every key maps to the value written last, whatever the sequence of calls (including rejected
calls, which change nothing). -/
theorem C13_last_write_wins (calls : List (NameArg × ValArg)) (k : Key) :
    (setMany [] calls).lookup k = lastWrite calls k := by
  rw [setMany_lookup [] calls (by simp [NodupKeys])]
  simp

/-- C13: a single call sets its key and no other, from any table without duplicate keys. -/
theorem C13_set_constant_effect (t : Table) (hn : NodupKeys t) (s : String) (v : Int) (t' : Table)
    (h : setConstant t (.str s) (.int v) = .ok t') (k : Key) :
    t'.lookup k = if k = posInt s then some v else t.lookup k := by
  simp only [setConstant, Except.ok.injEq] at h
  subst h
  have hd := dictSet_nodup (posInt s) v t hn
  rw [lookup_perm _ _ (sortTable_nodup _ hd) (sortTable_perm _), dictSet_lookup]

/-- C13: only strings (or symbols) with exact integers are accepted. -/
theorem C13_rejections (t : Table) (n : NameArg) (v : ValArg) :
    (∃ e, setConstant t n v = .error e) ↔ n = .other ∨ v = .other := by
  cases n <;> cases v <;> simp [setConstant]

/-- C13: iteration is in ascending name order and no key occurs twice. -/
theorem C13_sorted (calls : List (NameArg × ValArg)) :
    (setMany [] calls).Pairwise (fun a b => a.1.name ≤ b.1.name) ∧
      ((setMany [] calls).map Prod.fst).Nodup :=
  ⟨setMany_sorted [] calls List.Pairwise.nil, setMany_nodup [] calls (by simp [NodupKeys])⟩

/-- C13 full claim on names: no name occurs twice. -/
def C13_claim_names : Prop :=
  ∀ calls : List (NameArg × ValArg), ((setMany [] calls).map (fun p => p.1.name)).Nodup

/-- C13: the claim on names is false if callers mix strings with plain `sympy.Symbol`s: both forms of
`N` are then kept. -/
theorem C13_negation_mixed_symbols : ¬ C13_claim_names := by
  intro h
  have := h [(.str "N", .int 1), (.symbol ⟨"N", 1⟩, .int 2)]
  revert this
  decide

/-- All names are given as strings (or as the positive integer symbols kerncraft uses itself). -/
def StringNames (calls : List (NameArg × ValArg)) : Prop :=
  ∀ c ∈ calls, ∀ k v, written c = some (k, v) → k.kind = 0

theorem strict_of_strings (calls : List (NameArg × ValArg)) (hs : StringNames calls) :
    (setMany [] calls).Pairwise (fun a b => a.1.name < b.1.name) := by
  obtain ⟨h1, h2⟩ := C13_sorted calls
  have hk : ∀ p ∈ setMany [] calls, p.1.kind = 0 := by
    intro p hp
    rcases setMany_keys [] calls p.1 p.2 hp with h | ⟨c, hc, x, hx⟩
    · simp at h
    · exact hs c hc p.1 x hx
  have h3 : (setMany [] calls).Pairwise (fun a b => a.1 ≠ b.1) := List.pairwise_map.1 h2
  apply (List.Pairwise.and h1 h3).imp_of_mem
  intro a b ha hb hab
  refine lt_of_le_of_ne hab.1 (fun e => hab.2 ?_)
  have e1 := hk a ha
  have e2 := hk b hb
  cases ha' : a.1; cases hb' : b.1
  simp_all

/-- C13: with string names, iteration is in strictly ascending name order (no duplicates). -/
theorem C13_strictly_sorted_partial (calls : List (NameArg × ValArg)) (hs : StringNames calls) :
    (setMany [] calls).Pairwise (fun a b => a.1.name < b.1.name) := strict_of_strings calls hs

/-- C13: with string names, the final table depends only on the last value per name, not on the order
in which different names were set. Missing: plain `sympy.Symbol` keys. -/
theorem C13_order_independent_partial (calls calls' : List (NameArg × ValArg))
    (hs : StringNames calls) (hs' : StringNames calls')
    (h : ∀ k, lastWrite calls k = lastWrite calls' k) : setMany [] calls = setMany [] calls' := by
  have h1 := strict_of_strings calls hs
  have h2 := strict_of_strings calls' hs'
  have n1 := (C13_sorted calls).2
  have n2 := (C13_sorted calls').2
  have hmem : ∀ p, p ∈ setMany [] calls ↔ p ∈ setMany [] calls' := by
    rintro ⟨k, v⟩
    constructor
    · intro hm
      have := lookup_eq_of_mem _ n1 k v hm
      rw [C13_last_write_wins, h, ← C13_last_write_wins] at this
      exact lookup_mem _ _ _ this
    · intro hm
      have := lookup_eq_of_mem _ n2 k v hm
      rw [C13_last_write_wins, ← h, ← C13_last_write_wins] at this
      exact lookup_mem _ _ _ this
  have hp : (setMany [] calls).Perm (setMany [] calls') :=
    (List.perm_ext_iff_of_nodup n1.of_map n2.of_map).2 hmem
  exact List.Perm.eq_of_pairwise (fun a b _ _ hab hba => absurd hab (not_lt_of_gt hba)) h1 h2 hp

example : setMany [] [(.str "N", .int 1), (.str "M", .int 7), (.str "N", .int 5), (.str "A", .other)]
    = [(posInt "M", 7), (posInt "N", 5)] := by decide
example : StringNames [(.str "N", .int 1), (.str "M", .int 7)] := by
  simp [StringNames, written, posInt]

end Verif.Constants
