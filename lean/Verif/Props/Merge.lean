import Verif.Model.Cli
import Mathlib.Tactic.Tauto
import Mathlib.Logic.Basic

/-!
C35: merging result dictionaries.
-/

namespace Verif.Cli

section
variable {K V : Type} [DecidableEq K]

/-! ### Specification: paths -/

/-- The subtree at a path. -/
def Forest.at : Forest K V → List K → Option (Tree K V)
  | _, [] => none
  | f, [k] => f.get k
  | f, k :: k' :: ks =>
    match f.get k with
    | some (.node g) => g.at (k' :: ks)
    | _ => none

/-- A leaf at a path. -/
def LeafAt (f : Forest K V) (p : List K) (v : V) : Prop := f.at p = some (.leaf v)

mutual
/-- Dictionaries have each key once, at every level. -/
def Tree.Wf : Tree K V → Prop
  | .leaf _ => True
  | .node f => f.Wf

def Forest.Wf : Forest K V → Prop
  | .nil => True
  | .cons k t rest => rest.get k = none ∧ t.Wf ∧ rest.Wf
end

theorem at_cons (f : Forest K V) (k : K) (ks : List K) (hks : ks ≠ []) :
    f.at (k :: ks) = match f.get k with
      | some (.node g) => g.at ks
      | _ => none := by
  cases ks with
  | nil => exact absurd rfl hks
  | cons k' ks => rw [Forest.at]

theorem at_nil (f : Forest K V) : f.at [] = none := by
  cases f <;> rfl

theorem at_single (f : Forest K V) (k : K) : f.at [k] = f.get k := by
  cases f <;> rfl

theorem get_set (f : Forest K V) (k : K) (t : Tree K V) (k' : K) :
    (f.set k t).get k' = if k = k' then some t else f.get k' := by
  match f with
  | .nil => simp [Forest.set, Forest.get]
  | .cons a s rest =>
    have ih := get_set rest k t k'
    simp only [Forest.set]
    by_cases h1 : a = k
    · subst h1
      by_cases h2 : a = k' <;> simp [Forest.get, h2]
    · rw [if_neg h1]
      by_cases h2 : a = k'
      · subst h2
        simp only [Forest.get, if_true]
        rw [if_neg (fun h : k = a => h1 h.symm)]
      · simp [Forest.get, h2, ih]

/-- Path lookup only depends on the entry of the first key. -/
theorem at_congr (f g : Forest K V) (k : K) (ks : List K) (h : f.get k = g.get k) :
    f.at (k :: ks) = g.at (k :: ks) := by
  by_cases hks : ks = []
  · subst hks; rw [at_single, at_single, h]
  · rw [at_cons f k ks hks, at_cons g k ks hks, h]

/-- Entry of a key after a successful merge. -/
theorem update_get (u : Forest K V) (d r : Forest K V) (hu : u.Wf) (h : update d u = .ok r) (k : K) :
    match u.get k with
    | none => r.get k = d.get k
    | some (.leaf v) => r.get k = some (.leaf v)
    | some (.node f) =>
      match d.get k with
      | none => ∃ s, update .nil f = .ok s ∧ r.get k = some (.node s)
      | some (.node g) => ∃ s, update g f = .ok s ∧ r.get k = some (.node s)
      | some (.leaf v) => f.isNil = true ∧ r.get k = some (.leaf v) := by
  match u with
  | .nil =>
    simp only [update, Except.ok.injEq] at h
    subst h
    simp [Forest.get]
  | .cons a t rest =>
    simp only [Forest.Wf] at hu
    obtain ⟨hna, ht, hrest⟩ := hu
    have step : ∀ t', update (d.set a t') rest = .ok r →
        (a = k → r.get k = some t') ∧ (a ≠ k →
          match rest.get k with
          | none => r.get k = d.get k
          | some (.leaf v) => r.get k = some (.leaf v)
          | some (.node f) =>
            match d.get k with
            | none => ∃ s, update .nil f = .ok s ∧ r.get k = some (.node s)
            | some (.node g) => ∃ s, update g f = .ok s ∧ r.get k = some (.node s)
            | some (.leaf v) => f.isNil = true ∧ r.get k = some (.leaf v)) := by
      intro t' ht'
      have ih := update_get rest (d.set a t') r hrest ht' k
      constructor
      · rintro rfl
        rw [hna] at ih
        simpa [get_set] using ih
      · intro hne
        rw [get_set, if_neg hne] at ih
        exact ih
    cases t with
    | leaf v =>
      rw [update] at h
      obtain ⟨s1, s2⟩ := step _ h
      by_cases hk : a = k
      · simp only [Forest.get, hk, if_true]; exact s1 hk
      · simp only [Forest.get, hk, if_false]; exact s2 hk
    | node f =>
      rw [update] at h
      by_cases hk : a = k
      · subst hk
        simp only [Forest.get, if_true]
        cases hg : d.get a with
        | none =>
          rw [hg] at h
          simp only at h ⊢
          cases hs : update .nil f with
          | error e => rw [hs] at h; simp at h
          | ok s =>
            rw [hs] at h
            exact ⟨s, rfl, (step _ h).1 rfl⟩
        | some t0 =>
          cases t0 with
          | leaf v =>
            rw [hg] at h
            simp only at h ⊢
            split at h
            · rename_i hn
              exact ⟨hn, (step _ h).1 rfl⟩
            · simp at h
          | node g =>
            rw [hg] at h
            simp only at h ⊢
            cases hs : update g f with
            | error e => rw [hs] at h; simp at h
            | ok s =>
              rw [hs] at h
              exact ⟨s, rfl, (step _ h).1 rfl⟩
      · simp only [Forest.get, hk, if_false]
        cases hg : d.get a with
        | none =>
          rw [hg] at h
          simp only at h
          cases hs : update .nil f with
          | error e => rw [hs] at h; simp at h
          | ok s =>
            rw [hs] at h
            exact (step _ h).2 hk
        | some t0 =>
          cases t0 with
          | leaf v =>
            rw [hg] at h
            simp only at h
            split at h
            · exact (step _ h).2 hk
            · simp at h
          | node g =>
            rw [hg] at h
            simp only at h
            cases hs : update g f with
            | error e => rw [hs] at h; simp at h
            | ok s =>
              rw [hs] at h
              exact (step _ h).2 hk

theorem wf_get (u : Forest K V) (hu : u.Wf) (k : K) (f : Forest K V) (h : u.get k = some (.node f)) :
    f.Wf := by
  match u with
  | .nil => simp [Forest.get] at h
  | .cons a t rest =>
    simp only [Forest.Wf] at hu
    simp only [Forest.get] at h
    split at h
    · simp only [Option.some.injEq] at h
      subst h
      simpa [Tree.Wf] using hu.2.1
    · exact wf_get rest hu.2.2 k f h

/-- C35: every leaf of the merged-in tree is in the result, at the same path and with the same value. -/
theorem C35_new_leaves (d u r : Forest K V) (hu : u.Wf) (h : update d u = .ok r) (p : List K) (v : V)
    (hp : LeafAt u p v) : LeafAt r p v := by
  unfold LeafAt at *
  induction p generalizing d u r with
  | nil => rw [at_nil] at hp; simp at hp
  | cons k ks ih =>
    have hg := update_get u d r hu h k
    by_cases hks : ks = []
    · subst hks
      rw [at_single] at hp ⊢
      rw [hp] at hg
      exact hg
    · rw [at_cons u k ks hks] at hp
      rw [at_cons r k ks hks]
      cases hu' : u.get k with
      | none => rw [hu'] at hp; simp at hp
      | some t =>
        cases t with
        | leaf w => rw [hu'] at hp; simp at hp
        | node f =>
          rw [hu'] at hp hg
          simp only at hp hg
          have hwf := wf_get u hu k f hu'
          cases hd : d.get k with
          | none =>
            rw [hd] at hg
            obtain ⟨s, hs, hr⟩ := hg
            rw [hr]
            exact ih .nil f s hwf hs hp
          | some t0 =>
            cases t0 with
            | leaf w =>
              rw [hd] at hg
              cases f with
              | nil =>
                cases ks with
                | nil => exact absurd rfl hks
                | cons k2 ks2 => cases ks2 <;> simp [Forest.at, Forest.get] at hp
              | cons _ _ _ => simp [Forest.isNil] at hg
            | node g =>
              rw [hd] at hg
              obtain ⟨s, hs, hr⟩ := hg
              rw [hr]
              exact ih g f s hwf hs hp

/-- `u` touches a path if one of its leaves lies on the path or below it. -/
def Touches (u : Forest K V) (p : List K) : Prop :=
  ∃ q w, LeafAt u q w ∧ (q <+: p ∨ p <+: q)

/-- C35: leaves of the destination that are not touched are kept. -/
theorem C35_old_leaves (d u r : Forest K V) (hu : u.Wf) (h : update d u = .ok r) (p : List K) (v : V)
    (hp : LeafAt d p v) (hnt : ¬ Touches u p) : LeafAt r p v := by
  unfold LeafAt at hp ⊢
  induction p generalizing d u r with
  | nil => rw [at_nil] at hp; simp at hp
  | cons k ks ih =>
    have hg := update_get u d r hu h k
    cases hu' : u.get k with
    | none =>
      rw [hu'] at hg
      rw [at_congr r d k ks hg]
      exact hp
    | some t =>
      cases t with
      | leaf w =>
        exfalso
        apply hnt
        refine ⟨[k], w, ?_, Or.inl (by simp)⟩
        unfold LeafAt
        rw [at_single, hu']
      | node f =>
        rw [hu'] at hg
        simp only at hg
        have hwf := wf_get u hu k f hu'
        by_cases hks : ks = []
        · subst hks
          rw [at_single] at hp ⊢
          rw [hp] at hg
          exact hg.2
        · rw [at_cons d k ks hks] at hp
          rw [at_cons r k ks hks]
          cases hd : d.get k with
          | none => rw [hd] at hp; simp at hp
          | some t0 =>
            cases t0 with
            | leaf w => rw [hd] at hp; simp at hp
            | node g =>
              rw [hd] at hp hg
              simp only at hp hg
              obtain ⟨s, hs, hr⟩ := hg
              rw [hr]
              apply ih g f s hwf hs hp
              rintro ⟨q, w, hq, hpre⟩
              apply hnt
              have hqne : q ≠ [] := by rintro rfl; unfold LeafAt at hq; rw [at_nil] at hq; simp at hq
              refine ⟨k :: q, w, ?_, ?_⟩
              · unfold LeafAt
                rw [at_cons u k q hqne, hu']
                exact hq
              · rcases hpre with hpre | hpre
                · exact Or.inl (by simpa using hpre)
                · exact Or.inr (by simpa using hpre)

/-- C35: the result contains nothing else. -/
theorem C35_nothing_else (d u r : Forest K V) (hu : u.Wf) (h : update d u = .ok r) (p : List K) (v : V)
    (hp : LeafAt r p v) : LeafAt u p v ∨ LeafAt d p v := by
  unfold LeafAt at *
  induction p generalizing d u r with
  | nil => rw [at_nil] at hp; simp at hp
  | cons k ks ih =>
    have hg := update_get u d r hu h k
    cases hu' : u.get k with
    | none =>
      rw [hu'] at hg
      rw [at_congr r d k ks hg] at hp
      exact Or.inr hp
    | some t =>
      cases t with
      | leaf w =>
        rw [hu'] at hg
        left
        rw [← hp]
        apply at_congr
        rw [hu', hg]
      | node f =>
        rw [hu'] at hg
        simp only at hg
        have hwf := wf_get u hu k f hu'
        by_cases hks : ks = []
        · subst hks
          rw [at_single] at hp
          rw [at_single, at_single]
          cases hd : d.get k with
          | none => rw [hd] at hg; obtain ⟨s, _, hr⟩ := hg; rw [hr] at hp; simp at hp
          | some t0 =>
            cases t0 with
            | leaf w => rw [hd] at hg; rw [hg.2] at hp; exact Or.inr hp
            | node g => rw [hd] at hg; obtain ⟨s, _, hr⟩ := hg; rw [hr] at hp; simp at hp
        · rw [at_cons r k ks hks] at hp
          rw [at_cons u k ks hks, at_cons d k ks hks, hu']
          cases hd : d.get k with
          | none =>
            rw [hd] at hg
            obtain ⟨s, hs, hr⟩ := hg
            rw [hr] at hp
            rcases ih .nil f s hwf hs hp with h1 | h1
            · exact Or.inl h1
            · cases ks with
              | nil => exact absurd rfl hks
              | cons k2 ks2 => cases ks2 <;> simp [Forest.at, Forest.get] at h1
          | some t0 =>
            cases t0 with
            | leaf w => rw [hd] at hg; rw [hg.2] at hp; simp at hp
            | node g =>
              rw [hd] at hg
              obtain ⟨s, hs, hr⟩ := hg
              rw [hr] at hp
              exact ih g f s hwf hs hp

/-- A conflict: a path with a leaf in `d` and a nonempty dictionary in `u`. -/
def Conflict (d u : Forest K V) : Prop :=
  ∃ p v f, LeafAt d p v ∧ u.at p = some (.node f) ∧ f.isNil = false

theorem update_conflict (u : Forest K V) (d : Forest K V) (hu : u.Wf) :
    (∃ e, update d u = .error e) → Conflict d u := by
  match u with
  | .nil => rintro ⟨e, h⟩; simp [update] at h
  | .cons a t rest =>
    simp only [Forest.Wf] at hu
    obtain ⟨hna, ht, hrest⟩ := hu
    have lift : ∀ t', Conflict (d.set a t') rest → Conflict d (.cons a t rest) := by
      rintro t' ⟨p, v, f, h1, h2, h3⟩
      cases p with
      | nil => rw [at_nil] at h2; simp at h2
      | cons k ks =>
        have hka : a ≠ k := by
          rintro rfl
          have : rest.at (a :: ks) = (Forest.nil : Forest K V).at (a :: ks) :=
            at_congr _ _ _ _ (by rw [hna]; rfl)
          rw [this] at h2
          cases ks <;> simp [Forest.at, Forest.get] at h2
        refine ⟨k :: ks, v, f, ?_, ?_, h3⟩
        · unfold LeafAt at *
          rw [← h1]
          apply at_congr
          rw [get_set, if_neg hka]
        · rw [← h2]
          apply at_congr
          simp [Forest.get, hka]
    rintro ⟨e, h⟩
    cases t with
    | leaf v =>
      rw [update] at h
      exact lift _ (update_conflict rest _ hrest ⟨e, h⟩)
    | node f =>
      simp only [Tree.Wf] at ht
      rw [update] at h
      cases hg : d.get a with
      | none =>
        rw [hg] at h
        simp only at h
        cases hs : update .nil f with
        | error e' =>
          obtain ⟨p, v, _, h1, _⟩ := update_conflict f .nil ht ⟨e', hs⟩
          unfold LeafAt at h1
          cases p with
          | nil => rw [at_nil] at h1; simp at h1
          | cons k ks => cases ks <;> simp [Forest.at, Forest.get] at h1
        | ok s =>
          rw [hs] at h
          exact lift _ (update_conflict rest _ hrest ⟨e, h⟩)
      | some t0 =>
        cases t0 with
        | leaf v =>
          rw [hg] at h
          simp only at h
          split at h
          · exact lift _ (update_conflict rest _ hrest ⟨e, h⟩)
          · rename_i hn
            refine ⟨[a], v, f, ?_, ?_, by simpa using hn⟩
            · unfold LeafAt; rw [at_single, hg]
            · rw [at_single]; simp [Forest.get]
        | node g =>
          rw [hg] at h
          simp only at h
          cases hs : update g f with
          | error e' =>
            obtain ⟨p, v, f', h1, h2, h3⟩ := update_conflict f g ht ⟨e', hs⟩
            have hp : p ≠ [] := by rintro rfl; rw [at_nil] at h2; simp at h2
            refine ⟨a :: p, v, f', ?_, ?_, h3⟩
            · unfold LeafAt at *; rw [at_cons d a p hp, hg]; exact h1
            · rw [at_cons _ a p hp]; simpa [Forest.get] using h2
          | ok s =>
            rw [hs] at h
            exact lift _ (update_conflict rest _ hrest ⟨e, h⟩)

theorem conflict_no_result (u d r : Forest K V) (hu : u.Wf) (h : update d u = .ok r) :
    ¬ Conflict d u := by
  rintro ⟨p, v, f, h1, h2, h3⟩
  unfold LeafAt at h1
  induction p generalizing d u r with
  | nil => rw [at_nil] at h1; simp at h1
  | cons k ks ih =>
    have hg := update_get u d r hu h k
    by_cases hks : ks = []
    · subst hks
      rw [at_single] at h1 h2
      rw [h1, h2] at hg
      simp [h3] at hg
    · rw [at_cons d k ks hks] at h1
      rw [at_cons u k ks hks] at h2
      cases hu' : u.get k with
      | none => rw [hu'] at h2; simp at h2
      | some t =>
        cases t with
        | leaf w => rw [hu'] at h2; simp at h2
        | node f' =>
          cases hd : d.get k with
          | none => rw [hd] at h1; simp at h1
          | some t0 =>
            cases t0 with
            | leaf w => rw [hd] at h1; simp at h1
            | node g =>
              rw [hd] at h1 hg
              rw [hu'] at h2 hg
              obtain ⟨s, hs, _⟩ := hg
              exact ih f' g s (wf_get u hu k f' hu') hs h1 h2

/-- C35: a merge fails exactly if a nonempty dictionary would have to replace a leaf. -/
theorem C35_rejected_iff (d u : Forest K V) (hu : u.Wf) : (∃ e, update d u = .error e) ↔ Conflict d u := by
  constructor
  · exact update_conflict u d hu
  · intro hc
    cases h : update d u with
    | error e => exact ⟨e, rfl⟩
    | ok r => exact absurd hc (conflict_no_result u d r hu h)

end

/-- `{1: {2: 10, 3: 11}, 4: 12}` merged with `{1: {3: 21, 5: 22}, 6: {}}`. -/
example : let d : Forest Nat Nat := .cons 1 (.node (.cons 2 (.leaf 10) (.cons 3 (.leaf 11) .nil))) (.cons 4 (.leaf 12) .nil)
    let u : Forest Nat Nat := .cons 1 (.node (.cons 3 (.leaf 21) (.cons 5 (.leaf 22) .nil))) (.cons 6 (.node .nil) .nil)
    update d u = .ok (.cons 1 (.node (.cons 2 (.leaf 10) (.cons 3 (.leaf 21) (.cons 5 (.leaf 22) .nil))))
      (.cons 4 (.leaf 12) (.cons 6 (.node .nil) .nil))) ∧ u.Wf ∧ LeafAt d [1, 2] 10 := by
  refine ⟨rfl, ?_, rfl⟩
  simp [Forest.Wf, Tree.Wf, Forest.get]

end Verif.Cli
