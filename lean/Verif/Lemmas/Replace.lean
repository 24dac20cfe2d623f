import Verif.Spec.Subst
import Mathlib.Data.List.Basic
import Mathlib.Tactic.Common

/-!
Lemmas for C94.
-/

namespace Verif.Replace

open Verif.Subst

theorem listNames_append (ts us : List Tree) : listNames (ts ++ us) = listNames ts ++ listNames us := by
  induction ts with
  | nil => rfl
  | cons t ts ih => simp [listNames, ih]

mutual
/-- A tree without `n` is its own substitution. -/
theorem is_self (n : String) (rep : Rep) : ∀ t : Tree, (n ∉ names t) → Is n rep t t
  | .id m, _ => .id m
  | .node l fs, h => .node l fs fs (isFields_self n rep fs (by simpa [names] using h))
theorem isFields_self (n : String) (rep : Rep) : ∀ fs : List Field, (n ∉ fieldNames fs) → IsFields n rep fs fs
  | [], _ => .nil
  | .one t :: fs, h => by
    simp only [fieldNames, List.mem_append, not_or] at h
    refine .one t t fs fs ?_ (is_self n rep t h.1) (isFields_self n rep fs h.2)
    rintro rfl
    simp [names] at h
  | .many ts :: fs, h => by
    simp only [fieldNames, List.mem_append, not_or] at h
    exact .many ts ts fs fs (isList_self n rep ts h.1) (isFields_self n rep fs h.2)
theorem isList_self (n : String) (rep : Rep) : ∀ ts : List Tree, (n ∉ listNames ts) → IsList n rep ts ts
  | [], _ => .nil
  | t :: ts, h => by
    simp only [listNames, List.mem_append, not_or] at h
    refine .cons t t ts ts ?_ (is_self n rep t h.1) (isList_self n rep ts h.2)
    rintro rfl
    simp [names] at h
end

mutual
/-- Substitution is a function. -/
theorem is_unique (n : String) (rep : Rep) : ∀ t u v : Tree, Is n rep t u → Is n rep t v → u = v
  | .id m, u, v, h, h' => by cases h; cases h'; rfl
  | .node l fs, u, v, h, h' => by
    cases h with
    | node _ _ gs h =>
    cases h' with
    | node _ _ gs' h' =>
    rw [isFields_unique n rep fs gs gs' h h']
theorem isFields_unique (n : String) (rep : Rep) : ∀ fs gs hs : List Field, IsFields n rep fs gs → IsFields n rep fs hs → gs = hs
  | [], _, _, h, h' => by cases h; cases h'; rfl
  | .one t :: fs, _, _, h, h' => by
    cases h with
    | here _ gs h =>
      cases h' with
      | here _ hs h' => rw [isFields_unique n rep fs gs hs h h']
      | one _ u _ hs hn _ _ => exact absurd rfl hn
    | one _ u _ gs hn ht h =>
      cases h' with
      | here _ hs h' => exact absurd rfl hn
      | one _ u' _ hs _ ht' h' => rw [isFields_unique n rep fs gs hs h h', is_unique n rep t u u' ht ht']
  | .many ts :: fs, _, _, h, h' => by
    cases h with
    | many _ us _ gs ht h =>
    cases h' with
    | many _ us' _ hs ht' h' => rw [isFields_unique n rep fs gs hs h h', isList_unique n rep ts us us' ht ht']
theorem isList_unique (n : String) (rep : Rep) : ∀ ts us vs : List Tree, IsList n rep ts us → IsList n rep ts vs → us = vs
  | [], _, _, h, h' => by cases h; cases h'; rfl
  | t :: ts, _, _, h, h' => by
    cases h with
    | here _ us h =>
      cases h' with
      | here _ vs h' => rw [isList_unique n rep ts us vs h h']
      | cons _ u _ vs hn _ _ => exact absurd rfl hn
    | cons _ u _ us hn ht h =>
      cases h' with
      | here _ vs h' => exact absurd rfl hn
      | cons _ u' _ vs _ ht' h' => rw [isList_unique n rep ts us vs h h', is_unique n rep t u u' ht ht']
end

theorem isList_append (n : String) (rep : Rep) (ts us ts' us' : List Tree) (h : IsList n rep ts us) (h' : IsList n rep ts' us') :
    IsList n rep (ts ++ ts') (us ++ us') := by
  induction ts generalizing us with
  | nil => cases h; simpa using h'
  | cons t ts ih =>
    cases h with
    | here _ us h =>
      rw [List.append_assoc]
      exact .here _ _ (ih us h)
    | cons _ u _ us hn ht h => exact .cons t u _ _ hn ht (ih us h)

theorem isList_append_inv (n : String) (rep : Rep) (ts ts' us : List Tree) (h : IsList n rep (ts ++ ts') us) :
    ∃ vs vs', us = vs ++ vs' ∧ IsList n rep ts vs ∧ IsList n rep ts' vs' := by
  induction ts generalizing us with
  | nil => exact ⟨[], us, rfl, .nil, h⟩
  | cons t ts ih =>
    cases h with
    | here _ us h =>
      obtain ⟨vs, vs', rfl, h1, h2⟩ := ih us h
      exact ⟨nodes rep ++ vs, vs', by simp, .here _ _ h1, h2⟩
    | cons _ u _ us hn ht h =>
      obtain ⟨vs, vs', rfl, h1, h2⟩ := ih us h
      exact ⟨u :: vs, vs', rfl, .cons t u _ _ hn ht h1, h2⟩

/-- What is assumed: the inserted nodes do not contain the placeholder, and if there are none placeholders are apart. -/
def Fresh (n : String) (rep : Rep) : Prop := n ∉ listNames (nodes rep)

/-- Soundness for all three functions. -/
theorem visit_sound (n : String) (rep : Rep) (hf : Fresh n rep) (k : Nat) :
    (∀ t u, (nodes rep = [] → Apart n t) → visit n rep k t = some u → Is n rep t u) ∧
    (∀ fs gs, (nodes rep = [] → ApartFields n fs) → visitFields n rep k fs = some gs → IsFields n rep fs gs) ∧
    (∀ ts us, (nodes rep = [] → ApartList n ts) → visitItems n rep k ts = some us → IsList n rep ts us) := by
  induction k with
  | zero => refine ⟨?_, ?_, ?_⟩ <;> intro _ _ _ h <;> simp [visit, visitFields, visitItems] at h
  | succ k ih =>
    obtain ⟨i1, i2, i3⟩ := ih
    refine ⟨?_, ?_, ?_⟩
    · intro t u ha h
      cases t with
      | id m => simp only [visit, Option.some.injEq] at h; subst h; exact .id m
      | node l fs =>
        simp only [visit, Option.map_eq_some_iff] at h
        obtain ⟨gs, hg, rfl⟩ := h
        exact .node l fs gs (i2 fs gs (fun e => by simpa [Apart] using ha e) hg)
    · intro fs gs ha h
      match fs with
      | [] => simp only [visitFields, Option.some.injEq] at h; subst h; exact .nil
      | .one (.id m) :: fs =>
        simp only [visitFields, Option.map_eq_some_iff] at h
        obtain ⟨gs, hg, rfl⟩ := h
        have := i2 fs gs (fun e => by have := ha e; simp only [ApartFields] at this; exact this.2) hg
        split_ifs with e
        · subst e; exact .here fs gs this
        · exact .one _ _ fs gs (by simpa using e) (.id m) this
      | .one (.node l hs) :: fs =>
        simp only [visitFields] at h
        split at h
        · rename_i t gs' ht hg
          simp only [Option.some.injEq] at h
          subst h
          exact .one _ t fs gs' (by simp)
            (i1 _ t (fun e => by have := ha e; simp only [ApartFields] at this; exact this.1) ht)
            (i2 fs gs' (fun e => by have := ha e; simp only [ApartFields] at this; exact this.2) hg)
        · cases h
      | .many ts :: fs =>
        simp only [visitFields] at h
        split at h
        · rename_i us gs' ht hg
          simp only [Option.some.injEq] at h
          subst h
          exact .many ts us fs gs'
            (i3 _ us (fun e => by have := ha e; simp only [ApartFields] at this; exact this.1) ht)
            (i2 fs gs' (fun e => by have := ha e; simp only [ApartFields] at this; exact this.2) hg)
        · cases h
    · intro ts us ha h
      match ts with
      | [] => simp only [visitItems, Option.some.injEq] at h; subst h; exact .nil
      | .node l fs :: ts =>
        simp only [visitItems] at h
        split at h
        · rename_i t us' ht hg
          simp only [Option.some.injEq] at h
          subst h
          exact .cons _ t ts us' (by simp)
            (i1 _ t (fun e => by have := ha e; simp only [ApartList] at this; exact this.1) ht)
            (i3 ts us' (fun e => by have := ha e; simp only [ApartList] at this; exact this.2.2) hg)
        · cases h
      | .id m :: ts =>
        simp only [visitItems] at h
        have ha' : nodes rep = [] → ApartList n ts := fun e => by
          have := ha e; simp only [ApartList] at this; exact this.2.2
        split at h
        · rename_i e
          subst e
          match rep with
          | .single t =>
            simp only [Option.map_eq_some_iff] at h
            obtain ⟨vs, hv, rfl⟩ := h
            exact .here ts vs (i3 ts vs ha' hv)
          | .list [] =>
            match ts with
            | [] => simp only [Option.some.injEq] at h; subst h; exact .here [] [] .nil
            | x :: ts =>
              simp only [Option.map_eq_some_iff] at h
              obtain ⟨vs, hv, rfl⟩ := h
              have hx := ha rfl
              simp only [ApartList] at hx
              have hxn : m ∉ names x := by simpa using hx.2.1
              refine .here (x :: ts) (x :: vs) (.cons x x ts vs ?_ (is_self m _ x hxn) (i3 ts vs (fun _ => hx.2.2.2.2) hv))
              rintro rfl
              simp [names] at hxn
          | .list (r :: rs) =>
            simp only [Option.map_eq_some_iff] at h
            obtain ⟨vs, hv, rfl⟩ := h
            have := i3 (rs ++ ts) vs (by simp [nodes]) hv
            obtain ⟨v1, v2, rfl, h1, h2⟩ := isList_append_inv _ _ _ _ _ this
            have hrs : m ∉ listNames rs := by
              simp only [Fresh, nodes, listNames, List.mem_append, not_or] at hf
              exact hf.2
            rw [isList_unique _ _ _ _ _ h1 (isList_self _ _ rs hrs)]
            have := IsList.here (n := m) (rep := .list (r :: rs)) ts v2 h2
            simpa [nodes] using this
        · rename_i e
          simp only [Option.map_eq_some_iff] at h
          obtain ⟨vs, hv, rfl⟩ := h
          exact .cons _ _ ts vs (by simpa using e) (.id m) (i3 ts vs ha' hv)

/-! ### Termination -/

theorem visit_mono (n : String) (rep : Rep) (k : Nat) :
    (∀ t u, visit n rep k t = some u → visit n rep (k + 1) t = some u) ∧
    (∀ fs gs, visitFields n rep k fs = some gs → visitFields n rep (k + 1) fs = some gs) ∧
    (∀ ts us, visitItems n rep k ts = some us → visitItems n rep (k + 1) ts = some us) := by
  induction k with
  | zero => refine ⟨?_, ?_, ?_⟩ <;> intro _ _ h <;> simp [visit, visitFields, visitItems] at h
  | succ k ih =>
    obtain ⟨i1, i2, i3⟩ := ih
    refine ⟨?_, ?_, ?_⟩
    · intro t u h
      cases t with
      | id m => simpa [visit] using h
      | node l fs =>
        simp only [visit, Option.map_eq_some_iff] at h
        obtain ⟨gs, hg, rfl⟩ := h
        rw [visit, i2 fs gs hg]
        rfl
    · intro fs gs h
      match fs with
      | [] => simpa [visitFields] using h
      | .one (.id m) :: fs =>
        simp only [visitFields, Option.map_eq_some_iff] at h
        obtain ⟨gs, hg, rfl⟩ := h
        rw [visitFields, i2 fs gs hg]
        rfl
      | .one (.node l hs) :: fs =>
        simp only [visitFields] at h
        split at h
        · rename_i t gs' ht hg
          rw [visitFields, i1 _ t ht, i2 fs gs' hg]
          exact h
        · cases h
      | .many ts :: fs =>
        simp only [visitFields] at h
        split at h
        · rename_i us gs' ht hg
          rw [visitFields, i3 _ us ht, i2 fs gs' hg]
          exact h
        · cases h
    · intro ts us h
      match ts with
      | [] => simpa [visitItems] using h
      | .node l fs :: ts =>
        simp only [visitItems] at h
        split at h
        · rename_i t us' ht hg
          rw [visitItems, i1 _ t ht, i3 ts us' hg]
          exact h
        · cases h
      | .id m :: ts =>
        simp only [visitItems] at h
        split at h
        · rename_i e
          subst e
          match rep with
          | .single t =>
            simp only [Option.map_eq_some_iff] at h
            obtain ⟨vs, hv, rfl⟩ := h
            simp [visitItems, i3 ts vs hv]
          | .list [] =>
            match ts with
            | [] => simpa [visitItems] using h
            | x :: ts =>
              simp only [Option.map_eq_some_iff] at h
              obtain ⟨vs, hv, rfl⟩ := h
              simp [visitItems, i3 ts vs hv]
          | .list (r :: rs) =>
            simp only [Option.map_eq_some_iff] at h
            obtain ⟨vs, hv, rfl⟩ := h
            simp [visitItems, i3 _ vs hv]
        · rename_i e
          simp only [Option.map_eq_some_iff] at h
          obtain ⟨vs, hv, rfl⟩ := h
          simp [visitItems, e, i3 ts vs hv]

theorem visit_le (n : String) (rep : Rep) (k j : Nat) (h : k ≤ j) :
    (∀ t u, visit n rep k t = some u → visit n rep j t = some u) ∧
    (∀ fs gs, visitFields n rep k fs = some gs → visitFields n rep j fs = some gs) ∧
    (∀ ts us, visitItems n rep k ts = some us → visitItems n rep j ts = some us) := by
  induction h with
  | refl => exact ⟨fun _ _ h => h, fun _ _ h => h, fun _ _ h => h⟩
  | @step i _ ih =>
    have m := visit_mono n rep i
    exact ⟨fun t u h => m.1 t u (ih.1 t u h), fun t u h => m.2.1 t u (ih.2.1 t u h), fun t u h => m.2.2 t u (ih.2.2 t u h)⟩

/-- A node in front of a list. -/
theorem items_cons (n : String) (rep : Rep) (t : Tree) (ts : List Tree) (hn : t ≠ .id n) (h : ∃ k u, visit n rep k t = some u)
    (h' : ∃ k us, visitItems n rep k ts = some us) : ∃ k us, visitItems n rep k (t :: ts) = some us := by
  obtain ⟨k, u, hu⟩ := h
  obtain ⟨j, us, hs⟩ := h'
  have a := (visit_le n rep k (max k j) (by omega)).1 t u hu
  have b := (visit_le n rep j (max k j) (by omega)).2.2 ts us hs
  refine ⟨max k j + 1, ?_⟩
  cases t with
  | id m => exact ⟨_, by simp only [visitItems]; rw [if_neg (by simpa using hn), b]; rfl⟩
  | node l fs => exact ⟨_, by simp only [visitItems]; rw [a, b]⟩

theorem fields_one (n : String) (rep : Rep) (t : Tree) (fs : List Field) (h : ∃ k u, visit n rep k t = some u)
    (h' : ∃ k us, visitFields n rep k fs = some us) : ∃ k us, visitFields n rep k (.one t :: fs) = some us := by
  obtain ⟨k, u, hu⟩ := h
  obtain ⟨j, us, hs⟩ := h'
  have a := (visit_le n rep k (max k j) (by omega)).1 t u hu
  have b := (visit_le n rep j (max k j) (by omega)).2.1 fs us hs
  refine ⟨max k j + 1, ?_⟩
  cases t with
  | id m => exact ⟨_, by simp only [visitFields]; rw [b]; rfl⟩
  | node l fs => exact ⟨_, by simp only [visitFields]; rw [a, b]⟩

theorem fields_many (n : String) (rep : Rep) (ts : List Tree) (fs : List Field) (h : ∃ k us, visitItems n rep k ts = some us)
    (h' : ∃ k us, visitFields n rep k fs = some us) : ∃ k us, visitFields n rep k (.many ts :: fs) = some us := by
  obtain ⟨k, u, hu⟩ := h
  obtain ⟨j, us, hs⟩ := h'
  have a := (visit_le n rep k (max k j) (by omega)).2.2 ts u hu
  have b := (visit_le n rep j (max k j) (by omega)).2.1 fs us hs
  exact ⟨max k j + 1, _, by simp only [visitFields]; rw [a, b]⟩

mutual
theorem free_visit (n : String) (rep : Rep) : ∀ t : Tree, (n ∉ names t) → ∃ k u, visit n rep k t = some u
  | .id m, _ => ⟨1, _, rfl⟩
  | .node l fs, h => by
    obtain ⟨k, gs, hg⟩ := free_fields n rep fs (by simpa [names] using h)
    exact ⟨k + 1, _, by rw [visit, hg]; rfl⟩
theorem free_fields (n : String) (rep : Rep) : ∀ fs : List Field, (n ∉ fieldNames fs) → ∃ k us, visitFields n rep k fs = some us
  | [], _ => ⟨1, _, rfl⟩
  | .one t :: fs, h => by
    simp only [fieldNames, List.mem_append, not_or] at h
    exact fields_one n rep t fs (free_visit n rep t h.1) (free_fields n rep fs h.2)
  | .many ts :: fs, h => by
    simp only [fieldNames, List.mem_append, not_or] at h
    exact fields_many n rep ts fs (free_items n rep ts [] h.1 ⟨1, _, rfl⟩ |>.imp fun _ h => by simpa using h) (free_fields n rep fs h.2)
theorem free_items (n : String) (rep : Rep) : ∀ ts rest : List Tree, (n ∉ listNames ts) →
    (∃ k us, visitItems n rep k rest = some us) → ∃ k us, visitItems n rep k (ts ++ rest) = some us
  | [], _, _, h' => h'
  | t :: ts, rest, h, h' => by
    simp only [listNames, List.mem_append, not_or] at h
    refine items_cons n rep t (ts ++ rest) ?_ (free_visit n rep t h.1) (free_items n rep ts rest h.2 h')
    rintro rfl
    simp [names] at h
end

mutual
theorem visit_ends (n : String) (rep : Rep) (hf : Fresh n rep) : ∀ t : Tree, ∃ k u, visit n rep k t = some u
  | .id m => ⟨1, _, rfl⟩
  | .node l fs => by
    obtain ⟨k, gs, hg⟩ := fields_ends n rep hf fs
    exact ⟨k + 1, _, by rw [visit, hg]; rfl⟩
theorem fields_ends (n : String) (rep : Rep) (hf : Fresh n rep) : ∀ fs : List Field, ∃ k us, visitFields n rep k fs = some us
  | [] => ⟨1, _, rfl⟩
  | .one t :: fs => fields_one n rep t fs (visit_ends n rep hf t) (fields_ends n rep hf fs)
  | .many ts :: fs => fields_many n rep ts fs (items_ends n rep hf ts) (fields_ends n rep hf fs)
theorem items_ends (n : String) (rep : Rep) (hf : Fresh n rep) : ∀ ts : List Tree, ∃ k us, visitItems n rep k ts = some us
  | [] => ⟨1, _, rfl⟩
  | .node l fs :: ts => items_cons n rep (.node l fs) ts (by simp) (visit_ends n rep hf (.node l fs)) (items_ends n rep hf ts)
  | .id m :: ts => by
    by_cases e : m = n
    · match rep, hf with
      | .single t, hf =>
        obtain ⟨k, us, h⟩ := items_ends n (.single t) hf ts
        exact ⟨k + 1, _, by simp only [visitItems]; rw [if_pos e, h]; rfl⟩
      | .list [], hf =>
        match ts with
        | [] => exact ⟨1, [], by simp [visitItems, e]⟩
        | x :: ts =>
          obtain ⟨k, us, h⟩ := items_ends n (.list []) hf ts
          exact ⟨k + 1, _, by simp only [visitItems]; rw [if_pos e, h]; rfl⟩
      | .list (r :: rs), hf =>
        have hrs : n ∉ listNames rs := by
          simp only [Fresh, nodes, listNames, List.mem_append, not_or] at hf
          exact hf.2
        obtain ⟨k, us, h⟩ := free_items n (.list (r :: rs)) rs ts hrs (items_ends n (.list (r :: rs)) hf ts)
        exact ⟨k + 1, _, by simp only [visitItems]; rw [if_pos e, h]; rfl⟩
    · exact items_cons n rep (.id m) ts (by simpa using e) ⟨1, _, rfl⟩ (items_ends n rep hf ts)
end

end Verif.Replace
