import Verif.Model.Cli
import Mathlib.Tactic.Tauto
import Mathlib.Logic.Basic
import Mathlib.Data.List.Basic
import Mathlib.Data.List.Nodup

/-!
C44: identifiers of results and lists of models. C59: every result can be stored.
-/

namespace Verif.Cli

section
variable {A : Type}

/-! ### Specification -/

mutual
/-- Equal up to list/tuple type. -/
def Same : PyVal A → PyVal A → Prop
  | .atom a, .atom b => a = b
  | .list l, .list m => Sames l m
  | .list l, .tuple m => Sames l m
  | .tuple l, .list m => Sames l m
  | .tuple l, .tuple m => Sames l m
  | .atom _, .list _ => False
  | .atom _, .tuple _ => False
  | .list _, .atom _ => False
  | .tuple _, .atom _ => False

def Sames : PyVals A → PyVals A → Prop
  | .nil, .nil => True
  | .cons x xs, .cons y ys => Same x y ∧ Sames xs ys
  | .nil, .cons _ _ => False
  | .cons _ _, .nil => False
end

mutual
/-- No lists at any depth. -/
def OnlyTuples : PyVal A → Prop
  | .atom _ => True
  | .list _ => False
  | .tuple l => OnlyTupless l

def OnlyTupless : PyVals A → Prop
  | .nil => True
  | .cons x xs => OnlyTuples x ∧ OnlyTupless xs
end

theorem toTuples_cons (x : PyVal A) (xs : PyVals A) :
    toTuples (.cons x xs) = .cons (toTuple x) (toTuples xs) := by
  cases xs with
  | nil => simp [toTuples]
  | cons y ys => rw [toTuples]

mutual
theorem toTuple_iff : (x y : PyVal A) → (toTuple x = toTuple y ↔ Same x y)
  | .atom a, y => by cases y <;> simp [toTuple, Same]
  | .list l, .atom b => by simp [toTuple, Same]
  | .list l, .list m => by simpa [toTuple, Same] using toTuples_iff l m
  | .list l, .tuple m => by simpa [toTuple, Same] using toTuples_iff l m
  | .tuple l, .atom b => by simp [toTuple, Same]
  | .tuple l, .list m => by simpa [toTuple, Same] using toTuples_iff l m
  | .tuple l, .tuple m => by simpa [toTuple, Same] using toTuples_iff l m

theorem toTuples_iff : (l m : PyVals A) → (toTuples l = toTuples m ↔ Sames l m)
  | .nil, .nil => by simp [toTuples, Sames]
  | .nil, .cons y ys => by simp [toTuples, toTuples_cons, Sames]
  | .cons x xs, .nil => by simp [toTuples, toTuples_cons, Sames]
  | .cons x xs, .cons y ys => by
    rw [toTuples_cons, toTuples_cons, Sames, ← toTuple_iff x y, ← toTuples_iff xs ys]
    simp
end

mutual
theorem onlyTuples_toTuple : (x : PyVal A) → OnlyTuples (toTuple x)
  | .atom a => by simp [toTuple, OnlyTuples]
  | .list l => by simpa [toTuple, OnlyTuples] using onlyTuples_toTuples l
  | .tuple l => by simpa [toTuple, OnlyTuples] using onlyTuples_toTuples l

theorem onlyTuples_toTuples : (l : PyVals A) → OnlyTupless (toTuples l)
  | .nil => by simp [toTuples, OnlyTupless]
  | .cons x xs => by
    rw [toTuples_cons, OnlyTupless]
    exact ⟨onlyTuples_toTuple x, onlyTuples_toTuples xs⟩
end

mutual
theorem same_refl : (x : PyVal A) → Same x x
  | .atom a => by simp [Same]
  | .list l => by simpa [Same] using sames_refl l
  | .tuple l => by simpa [Same] using sames_refl l

theorem sames_refl : (l : PyVals A) → Sames l l
  | .nil => by simp [Sames]
  | .cons x xs => by simpa [Sames] using ⟨same_refl x, sames_refl xs⟩
end

mutual
theorem same_toTuple : (x : PyVal A) → Same (toTuple x) x
  | .atom a => by simp [toTuple, Same]
  | .list l => by simpa [toTuple, Same] using sames_toTuples l
  | .tuple l => by simpa [toTuple, Same] using sames_toTuples l

theorem sames_toTuples : (l : PyVals A) → Sames (toTuples l) l
  | .nil => by simp [toTuples, Sames]
  | .cons x xs => by
    rw [toTuples_cons, Sames]
    exact ⟨same_toTuple x, sames_toTuples xs⟩
end

/-- C44: the conversion changes lists to tuples and nothing else. -/
theorem C44_structure (x : PyVal A) : OnlyTuples (toTuple x) ∧ Same (toTuple x) x :=
  ⟨onlyTuples_toTuple x, same_toTuple x⟩

/-- C44: values are converted to the same value exactly if they are equal up to list/tuple type. -/
theorem C44_injective (x y : PyVal A) : toTuple x = toTuple y ↔ Same x y := toTuple_iff x y

theorem identPart_val (v : PyVal A) : identPart (.val v) = toTuple v := by
  cases v with
  | atom a => simp [identPart, toTuple]
  | list l =>
    simp only [identPart]
    rw [toTuple_iff]
    exact same_toTuple _
  | tuple l => simp [identPart]

theorem mem_identifier (args : List (String × ArgVal A)) (kwargs : List (String × PyVal A)) (k : String)
    (p : PyVal A) : (k, p) ∈ identifier args kwargs ↔
      ∃ v, (k, v) ∈ args ∧ (kwargs.lookup k = some p ∨
        (kwargs.lookup k = none ∧ k ∉ ignoredKeys ∧ p = identPart v)) := by
  unfold identifier
  simp only [List.mem_filterMap, List.mem_insertionSort, Prod.exists]
  constructor
  · rintro ⟨k', v, hm, h⟩
    split at h
    · rename_i w hw
      simp only [Option.some.injEq, Prod.mk.injEq] at h
      obtain ⟨rfl, rfl⟩ := h
      exact ⟨v, hm, Or.inl hw⟩
    · rename_i hw
      split at h
      · simp at h
      · rename_i hi
        simp only [Option.some.injEq, Prod.mk.injEq] at h
        obtain ⟨rfl, rfl⟩ := h
        exact ⟨v, hm, Or.inr ⟨hw, hi, rfl⟩⟩
  · rintro ⟨v, hm, h⟩
    refine ⟨k, v, hm, ?_⟩
    rcases h with h | ⟨h1, h2, h3⟩
    · rw [h]
    · rw [h1]; simp [h2, h3]

/-- C44: equal identifiers mean equal arguments, up to list/tuple type, and equal file names, except for the ignored
ones; and equal overriding values. -/
theorem C44_identifier (args args' : List (String × ArgVal A)) (kwargs kwargs' : List (String × PyVal A))
    (hnd : (args'.map Prod.fst).Nodup) (hkw : ∀ k, kwargs.lookup k = none ↔ kwargs'.lookup k = none)
    (h : identifier args kwargs = identifier args' kwargs') :
    (∀ k v v', k ∉ ["verbose", "store", "unit", "clean_intermediates"] → kwargs.lookup k = none →
      (k, .val v) ∈ args → (k, .val v') ∈ args' → Same v v') ∧
    (∀ k n n', k ∉ ["verbose", "store", "unit", "clean_intermediates"] → kwargs.lookup k = none →
      (k, .file n) ∈ args → (k, .file n') ∈ args' → n = n') ∧
    (∀ k v w, (k, v) ∈ args → kwargs.lookup k = some w → kwargs'.lookup k = some w) := by
  refine ⟨?_, ?_, ?_⟩
  · intro k v v' hi hk hm hm'
    have h1 : (k, toTuple v) ∈ identifier args kwargs :=
      (mem_identifier _ _ _ _).2 ⟨_, hm, Or.inr ⟨hk, hi, (identPart_val v).symm⟩⟩
    rw [h, mem_identifier] at h1
    obtain ⟨v'', hm'', h1⟩ := h1
    rcases h1 with h1 | ⟨_, _, h1⟩
    · rw [(hkw k).1 hk] at h1; simp at h1
    · have : v'' = .val v' := by
        have hinj := List.inj_on_of_nodup_map hnd hm'' hm' rfl
        simpa using hinj
      rw [this, identPart_val] at h1
      exact (toTuple_iff v v').1 h1
  · intro k n n' hi hk hm hm'
    have h1 : (k, identPart (.file n)) ∈ identifier args kwargs :=
      (mem_identifier _ _ _ _).2 ⟨_, hm, Or.inr ⟨hk, hi, rfl⟩⟩
    rw [h, mem_identifier] at h1
    obtain ⟨v'', hm'', h1⟩ := h1
    rcases h1 with h1 | ⟨_, _, h1⟩
    · rw [(hkw k).1 hk] at h1; simp at h1
    · have : v'' = .file n' := by
        have hinj := List.inj_on_of_nodup_map hnd hm'' hm' rfl
        simpa using hinj
      rw [this] at h1
      simpa [identPart] using h1
  · intro k v w hm hk
    have h1 : (k, w) ∈ identifier args kwargs := (mem_identifier _ _ _ _).2 ⟨_, hm, Or.inl hk⟩
    rw [h, mem_identifier] at h1
    obtain ⟨v'', _, h1⟩ := h1
    rcases h1 with h1 | ⟨h1, _, _⟩
    · exact h1
    · rw [(hkw k).2 h1] at hk; simp at hk

theorem identifier_eq (args : List (String × ArgVal A)) (kwargs : List (String × PyVal A)) :
    identifier args kwargs =
      ((args.map fun kv => (kv.1, identPart kv.2)).insertionSort (fun a b => a.1 ≤ b.1)).filterMap fun kp =>
        match kwargs.lookup kp.1 with
        | some w => some (kp.1, w)
        | none => if kp.1 ∈ ignoredKeys then none else some (kp.1, kp.2) := by
  rw [← List.map_insertionSort (r := fun a b : String × ArgVal A => a.1 ≤ b.1), List.filterMap_map]
  · rfl
  · simp

/-- C44: arguments that are equal up to list/tuple type have the same identifier. -/
theorem C44_same_identifier (args args' : List (String × PyVal A)) (kwargs : List (String × PyVal A))
    (h : List.Forall₂ (fun a b => a.1 = b.1 ∧ Same a.2 b.2) args args') :
    identifier (args.map fun a => (a.1, .val a.2)) kwargs = identifier (args'.map fun a => (a.1, .val a.2)) kwargs := by
  rw [identifier_eq, identifier_eq]
  have : ∀ l : List (String × PyVal A), ((l.map fun a => (a.1, ArgVal.val a.2)).map fun kv => (kv.1, identPart kv.2)) =
      l.map fun a => (a.1, toTuple a.2) := by
    intro l
    simp [identPart_val]
  rw [this, this]
  have heq : (args.map fun a => (a.1, toTuple a.2)) = args'.map fun a => (a.1, toTuple a.2) := by
    induction h with
    | nil => rfl
    | cons hab _ ih =>
      rw [List.map_cons, List.map_cons, ih, hab.1, (toTuple_iff _ _).2 hab.2]
  rw [heq]

/-- `[1, (2, [])]` and `(1, [2, ()])`. -/
example : Same (A := Nat)
    (.list (.cons (.atom 1) (.cons (.tuple (.cons (.atom 2) (.cons (.list .nil) .nil))) .nil)))
    (.tuple (.cons (.atom 1) (.cons (.list (.cons (.atom 2) (.cons (.tuple .nil) .nil))) .nil))) := by
  simp [Same, Sames]

/-- `-D N 10 -D M 20` against `-D N 10 -D M 21`: different arguments, different identifiers. -/
example : ¬ Same (A := Nat) (.list (.cons (.atom 10) (.cons (.atom 20) .nil)))
    (.list (.cons (.atom 10) (.cons (.atom 21) .nil))) := by simp [Same, Sames]

end

/-! ### Models -/

section
variable {α : Type} [DecidableEq α]

theorem uniquifyAux_seen (seen seen' : List α) (l : List α) (h : ∀ x, x ∈ seen ↔ x ∈ seen') :
    uniquifyAux seen l = uniquifyAux seen' l := by
  induction l generalizing seen seen' with
  | nil => rfl
  | cons x xs ih =>
    simp only [uniquifyAux, h x]
    split
    · exact ih _ _ h
    · rw [ih (x :: seen) (x :: seen') (by simp [h])]

theorem uniquifyAux_append (seen l : List α) (x : α) :
    uniquifyAux seen (l ++ [x]) =
      if x ∈ seen ∨ x ∈ l then uniquifyAux seen l else uniquifyAux seen l ++ [x] := by
  induction l generalizing seen with
  | nil => by_cases h : x ∈ seen <;> simp [uniquifyAux, h]
  | cons y l ih =>
    simp only [List.cons_append, uniquifyAux]
    by_cases hy : y ∈ seen
    · rw [if_pos hy, if_pos hy, ih]
      have : (x ∈ seen ∨ x ∈ l) ↔ (x ∈ seen ∨ x ∈ y :: l) := by
        simp only [List.mem_cons]
        constructor
        · tauto
        · rintro (h | rfl | h)
          · tauto
          · exact Or.inl hy
          · tauto
      simp only [this]
    · rw [if_neg hy, if_neg hy, ih]
      have : (x ∈ y :: seen ∨ x ∈ l) ↔ (x ∈ seen ∨ x ∈ y :: l) := by
        simp only [List.mem_cons]; tauto
      simp only [this]
      split <;> simp

/-- C44: an element is kept exactly at its first occurrence. -/
theorem C44_first_occurrences (l : List α) (x : α) :
    uniquify ([] : List α) = [] ∧
    uniquify (l ++ [x]) = if x ∈ l then uniquify l else uniquify l ++ [x] := by
  refine ⟨rfl, ?_⟩
  unfold uniquify
  rw [uniquifyAux_append]
  simp

theorem uniquifyAux_props (seen l : List α) :
    (∀ x, x ∈ uniquifyAux seen l ↔ x ∈ l ∧ x ∉ seen) ∧ (uniquifyAux seen l).Nodup ∧
      (uniquifyAux seen l).Sublist l := by
  induction l generalizing seen with
  | nil => simp [uniquifyAux]
  | cons y l ih =>
    simp only [uniquifyAux]
    by_cases hy : y ∈ seen
    · rw [if_pos hy]
      obtain ⟨h1, h2, h3⟩ := ih seen
      refine ⟨fun x => ?_, h2, h3.cons _⟩
      rw [h1]
      simp only [List.mem_cons]
      constructor
      · tauto
      · rintro ⟨rfl | h, h'⟩
        · exact absurd hy h'
        · exact ⟨h, h'⟩
    · rw [if_neg hy]
      obtain ⟨h1, h2, h3⟩ := ih (y :: seen)
      refine ⟨fun x => ?_, ?_, h3.cons_cons _⟩
      · rw [List.mem_cons, h1]
        simp only [List.mem_cons]
        constructor
        · rintro (rfl | ⟨h, h'⟩)
          · exact ⟨Or.inl rfl, hy⟩
          · tauto
        · rintro ⟨rfl | h, h'⟩
          · exact Or.inl rfl
          · by_cases hxy : x = y <;> tauto
      · rw [List.nodup_cons]
        exact ⟨fun h => ((h1 y).1 h).2 (by simp), h2⟩

/-- C44: the deduplicated list has the same elements, each once, in their order. -/
theorem C44_models (l : List α) :
    (uniquify l).Nodup ∧ (uniquify l).Sublist l ∧ ∀ x, x ∈ uniquify l ↔ x ∈ l := by
  obtain ⟨h1, h2, h3⟩ := uniquifyAux_props [] l
  exact ⟨h2, h3, fun x => by unfold uniquify; rw [h1]; simp⟩

example : uniquify ["ECM", "Roofline", "ECM", "LC"] = ["ECM", "Roofline", "LC"] := by decide

end

/-! ### Storing results -/

theorem hashable_pairs (c : List (String × Int)) :
    (toTuples (definePairs c)).hashable Atom.hashable = true := by
  induction c with
  | nil => simp [definePairs, toTuples, PyVals.hashable]
  | cons p c ih =>
    rw [definePairs, toTuples_cons, PyVals.hashable, ih]
    simp [toTuple, toTuples_cons, toTuples, PyVal.hashable, PyVals.hashable, Atom.hashable]

theorem definePairs_inj (c c' : List (String × Int)) (h : toTuples (definePairs c) = toTuples (definePairs c')) :
    c = c' := by
  induction c generalizing c' with
  | nil =>
    cases c' with
    | nil => rfl
    | cons _ _ => rw [definePairs, definePairs, toTuples_cons] at h; simp [toTuples] at h
  | cons p c ih =>
    cases c' with
    | nil => rw [definePairs, definePairs, toTuples_cons] at h; simp [toTuples] at h
    | cons p' c' =>
      rw [definePairs, definePairs, toTuples_cons, toTuples_cons] at h
      simp only [PyVals.cons.injEq] at h
      rw [ih c' h.2]
      have := h.1
      simp only [toTuple, toTuples_cons, toTuples, PyVal.tuple.injEq, PyVals.cons.injEq, PyVal.atom.injEq,
        Atom.str.injEq, Atom.int.injEq, and_true] at this
      rw [Prod.ext this.1 this.2]

/-- C59 does not hold: the result of a kernel without required constants cannot be stored. -/
theorem C59_negation : ¬ ∀ required combination, ∃ k, storeKey required combination = .ok k := by
  intro h
  obtain ⟨k, hk⟩ := h [] []
  simp [storeKey, defineArg, toTuple, PyVal.hashable, Atom.hashable] at hk

/-- C59, partial: with required constants every combination has an identifier, and different combinations have
different ones. Kernels without required constants are missing (`C59_negation`). -/
theorem C59_stored_partial (required : List String) (hreq : required ≠ []) (c c' : List (String × Int)) :
    (∃ k, storeKey required c = .ok k) ∧ (storeKey required c = storeKey required c' → c = c') := by
  simp only [storeKey, defineArg, if_neg hreq, toTuple, PyVal.hashable, hashable_pairs, if_true]
  refine ⟨⟨_, rfl⟩, ?_⟩
  intro h
  simp only [Except.ok.injEq, PyVal.tuple.injEq] at h
  exact definePairs_inj c c' h

/-- C59: the exact condition. Results can be stored if and only if the kernel has constants. -/
theorem C59_stored_iff (required : List String) (c : List (String × Int)) : (∃ k, storeKey required c = .ok k) ↔ required ≠ [] := by
  refine ⟨?_, fun h => (C59_stored_partial required h c c).1⟩
  rintro ⟨k, hk⟩ rfl
  simp [storeKey, defineArg, toTuple, PyVal.hashable, Atom.hashable] at hk

/-- A kernel with constants `M`, `N`. -/
example : (["M", "N"] : List String) ≠ [] ∧ [("M", (1 : Int)), ("N", 2)] ≠ [("M", 1), ("N", 3)] := by decide

end Verif.Cli
