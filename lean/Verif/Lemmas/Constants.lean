import Verif.Model.Constants
import Verif.Lemmas.Layout

namespace Verif.Constants
open Verif.Layout

instance : Std.Total (fun a b : Key × Int => a.1.name ≤ b.1.name) :=
  ⟨fun a b => le_total a.1.name b.1.name⟩
instance : IsTrans (Key × Int) (fun a b : Key × Int => a.1.name ≤ b.1.name) :=
  ⟨fun _ _ _ h1 h2 => le_trans h1 h2⟩

/-- No duplicate keys. -/
def NodupKeys (t : Table) : Prop := (t.map Prod.fst).Nodup

theorem lookup_cons_ite {β} (a : Key) (b : β) (t : List (Key × β)) (x : Key) :
    ((a, b) :: t).lookup x = if x = a then some b else t.lookup x := by
  rw [List.lookup_cons]
  by_cases h : x = a
  · subst h; simp
  · have : (x == a) = false := by simpa using h
    rw [this]; simp [h]

theorem lookup_eq_of_mem (t : Table) (hn : NodupKeys t) (k : Key) (v : Int) (h : (k, v) ∈ t) :
    t.lookup k = some v := by
  induction t with
  | nil => simp at h
  | cons p t ih =>
    obtain ⟨a, b⟩ := p
    unfold NodupKeys at hn ih
    rw [List.map_cons, List.nodup_cons] at hn
    rw [List.lookup_cons]
    rcases List.mem_cons.1 h with h | h
    · simp only [Prod.mk.injEq] at h
      simp [h.1, h.2]
    · have : a ≠ k := fun e => hn.1 (by rw [e]; exact List.mem_map.2 ⟨_, h, rfl⟩)
      have hb : (k == a) = false := by simpa using this.symm
      rw [hb]
      exact ih hn.2 h

theorem lookup_perm (t t' : Table) (hn : NodupKeys t) (hp : t.Perm t') (k : Key) :
    t.lookup k = t'.lookup k := by
  have hn' : NodupKeys t' := (hp.map _).nodup_iff.1 hn
  cases h : t.lookup k with
  | some v => exact (lookup_eq_of_mem t' hn' k v (hp.mem_iff.1 (lookup_mem _ _ _ h))).symm
  | none =>
    cases h' : t'.lookup k with
    | none => rfl
    | some v =>
      rw [lookup_eq_of_mem t hn k v (hp.mem_iff.2 (lookup_mem _ _ _ h'))] at h
      exact h.symm

theorem dictSet_keys (k : Key) (v : Int) (t : Table) (x : Key) :
    x ∈ (dictSet k v t).map Prod.fst ↔ x = k ∨ x ∈ t.map Prod.fst := by
  induction t with
  | nil => simp [dictSet]
  | cons p t ih =>
    obtain ⟨a, b⟩ := p
    rw [dictSet]
    split
    · rename_i h; subst h; simp
    · simp only [List.map_cons, List.mem_cons, ih]; tauto

theorem dictSet_nodup (k : Key) (v : Int) (t : Table) (h : NodupKeys t) :
    NodupKeys (dictSet k v t) := by
  induction t with
  | nil => simp [dictSet, NodupKeys]
  | cons p t ih =>
    obtain ⟨a, b⟩ := p
    unfold NodupKeys at h ih ⊢
    rw [List.map_cons, List.nodup_cons] at h
    rw [dictSet]
    split
    · rw [List.map_cons, List.nodup_cons]; exact h
    · rename_i hne
      rw [List.map_cons, List.nodup_cons, dictSet_keys]
      refine ⟨?_, ih h.2⟩
      rintro (e | e)
      · exact hne e
      · exact h.1 e

theorem dictSet_lookup (k : Key) (v : Int) (t : Table) (x : Key) :
    (dictSet k v t).lookup x = if x = k then some v else t.lookup x := by
  induction t with
  | nil =>
    rw [dictSet, lookup_cons_ite]
  | cons p t ih =>
    obtain ⟨a, b⟩ := p
    rw [dictSet]
    split
    · rename_i h
      subst h
      rw [lookup_cons_ite, lookup_cons_ite]
      split <;> simp
    · rename_i hne
      rw [lookup_cons_ite, lookup_cons_ite, ih]
      by_cases h : x = a
      · subst h; simp [hne]
      · simp [h]

theorem sortTable_perm (t : Table) : (sortTable t).Perm t := List.perm_insertionSort _ _

theorem sortTable_nodup (t : Table) (h : NodupKeys t) : NodupKeys (sortTable t) :=
  ((sortTable_perm t).map _).nodup_iff.2 h

theorem sortTable_sorted (t : Table) :
    (sortTable t).Pairwise (fun a b => a.1.name ≤ b.1.name) := List.pairwise_insertionSort _ _

/-- Key and value written by a successful call. -/
def written : NameArg × ValArg → Option (Key × Int)
  | (.str s, .int v) => some (posInt s, v)
  | (.symbol k, .int v) => some (k, v)
  | _ => none

theorem setMany_cons (t : Table) (c : NameArg × ValArg) (cs : List (NameArg × ValArg)) :
    setMany t (c :: cs) = setMany (match written c with
      | some (k, x) => sortTable (dictSet k x t)
      | none => t) cs := by
  obtain ⟨n, v⟩ := c
  cases n <;> cases v <;> rfl

theorem setMany_nodup (t : Table) (cs : List (NameArg × ValArg)) (h : NodupKeys t) :
    NodupKeys (setMany t cs) := by
  induction cs generalizing t with
  | nil => exact h
  | cons c cs ih =>
    rw [setMany_cons]
    apply ih
    split
    · exact sortTable_nodup _ (dictSet_nodup _ _ _ h)
    · exact h

theorem setMany_sorted (t : Table) (cs : List (NameArg × ValArg))
    (h : t.Pairwise (fun a b => a.1.name ≤ b.1.name)) :
    (setMany t cs).Pairwise (fun a b => a.1.name ≤ b.1.name) := by
  induction cs generalizing t with
  | nil => exact h
  | cons c cs ih =>
    rw [setMany_cons]
    apply ih
    split
    · exact sortTable_sorted _
    · exact h

/-- The last value successfully written to key `k`. -/
def lastWrite (cs : List (NameArg × ValArg)) (k : Key) : Option Int :=
  (cs.filterMap written).reverse.lookup k

theorem lookup_append {α β} [BEq α] (a b : List (α × β)) (x : α) :
    (a ++ b).lookup x = (a.lookup x).or (b.lookup x) := by
  induction a with
  | nil => simp
  | cons p a ih =>
    obtain ⟨u, v⟩ := p
    rw [List.cons_append, List.lookup_cons, List.lookup_cons]
    split
    · simp
    · exact ih

theorem lastWrite_cons (c : NameArg × ValArg) (cs : List (NameArg × ValArg)) (k : Key) :
    lastWrite (c :: cs) k = (lastWrite cs k).or (match written c with
      | some (k', v) => if k = k' then some v else none
      | none => none) := by
  unfold lastWrite
  cases h : written c with
  | none => rw [List.filterMap_cons_none h]; simp
  | some p =>
    obtain ⟨k', v⟩ := p
    rw [List.filterMap_cons_some h, List.reverse_cons, lookup_append]
    congr 1
    rw [lookup_cons_ite]; rfl

theorem setMany_lookup (t : Table) (cs : List (NameArg × ValArg)) (h : NodupKeys t) (k : Key) :
    (setMany t cs).lookup k = (lastWrite cs k).or (t.lookup k) := by
  induction cs generalizing t with
  | nil => simp [setMany, lastWrite]
  | cons c cs ih =>
    rw [setMany_cons, lastWrite_cons]
    cases hw : written c with
    | none => rw [ih t h]; simp
    | some p =>
      obtain ⟨k', v⟩ := p
      have hd := dictSet_nodup k' v t h
      rw [ih _ (sortTable_nodup _ hd),
        lookup_perm _ _ (sortTable_nodup _ hd) (sortTable_perm _), dictSet_lookup]
      cases lastWrite cs k with
      | some x => simp
      | none => by_cases hk : k = k' <;> simp [hk]

theorem setMany_keys (t : Table) (cs : List (NameArg × ValArg)) (k : Key) (v : Int)
    (h : (k, v) ∈ setMany t cs) :
    k ∈ t.map Prod.fst ∨ ∃ c ∈ cs, ∃ x, written c = some (k, x) := by
  induction cs generalizing t with
  | nil => exact Or.inl (List.mem_map.2 ⟨_, h, rfl⟩)
  | cons c cs ih =>
    rw [setMany_cons] at h
    rcases ih _ h with h1 | ⟨c', hc', x, hx⟩
    · cases hw : written c with
      | none => rw [hw] at h1; exact Or.inl h1
      | some p =>
        obtain ⟨k', v'⟩ := p
        rw [hw] at h1
        have h2 : k ∈ (dictSet k' v' t).map Prod.fst := ((sortTable_perm _).map _).mem_iff.1 h1
        rcases (dictSet_keys _ _ _ _).1 h2 with rfl | h3
        · exact Or.inr ⟨c, by simp, v', hw⟩
        · exact Or.inl h3
    · exact Or.inr ⟨c', by simp [hc'], x, hx⟩

/-! ### memo table -/

/-- Every memoised result is what substitution with the current constants would give. -/
def CacheFresh (s : KState) : Prop := ∀ e r, (e, r) ∈ s.cache → r = substSym s.consts e

theorem subsConsts_fresh (s : KState) (h : CacheFresh s) (e : Sym) :
    (subsConsts s e).1 = substSym s.consts e ∧ CacheFresh (subsConsts s e).2 ∧
      (subsConsts s e).2.consts = s.consts := by
  unfold subsConsts
  split
  · rename_i r hr
    have hm := lookup_mem _ _ _ hr
    refine ⟨h e r hm, ?_, rfl⟩
    intro e' r' hm'
    simp only [List.mem_cons, List.mem_filter] at hm'
    rcases hm' with h1 | h1
    · simp only [Prod.mk.injEq] at h1
      rw [h1.1, h1.2]
      exact h e r hm
    · exact h e' r' h1.1
  · refine ⟨rfl, ?_, rfl⟩
    intro e' r' hm'
    have := List.mem_of_mem_take hm'
    rcases List.mem_cons.1 this with h1 | h1
    · simp only [Prod.mk.injEq] at h1
      rw [h1.1, h1.2]
    · exact h e' r' h1

theorem cache_subs_mem (s : KState) (e x r : Sym) (h : (x, r) ∈ (subsConsts s e).2.cache) :
    x = e ∨ (x, r) ∈ s.cache := by
  unfold subsConsts at h
  split at h
  · simp only [List.mem_cons, List.mem_filter] at h
    rcases h with h | h
    · simp only [Prod.mk.injEq] at h; exact Or.inl h.1
    · exact Or.inr h.1
  · rcases List.mem_cons.1 (List.mem_of_mem_take h) with h | h
    · simp only [Prod.mk.injEq] at h; exact Or.inl h.1
    · exact Or.inr h

theorem substSym_congr (t t' : Table) (e : Sym)
    (h : ∀ s ∈ e.free, t.lookup (posInt s) = t'.lookup (posInt s)) :
    substSym t e = substSym t' e := by
  induction e with
  | num n => rfl
  | var s => simp only [substSym]; rw [h s (by simp [Sym.free])]
  | add a b iha ihb =>
    simp only [substSym]
    rw [iha (fun s hs => h s (by simp [Sym.free, hs])), ihb (fun s hs => h s (by simp [Sym.free, hs]))]
  | sub a b iha ihb =>
    simp only [substSym]
    rw [iha (fun s hs => h s (by simp [Sym.free, hs])), ihb (fun s hs => h s (by simp [Sym.free, hs]))]
  | mul a b iha ihb =>
    simp only [substSym]
    rw [iha (fun s hs => h s (by simp [Sym.free, hs])), ihb (fun s hs => h s (by simp [Sym.free, hs]))]

end Verif.Constants
