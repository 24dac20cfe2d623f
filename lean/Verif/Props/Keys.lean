import Verif.Model.Sim
import Mathlib.Tactic.Tauto
import Mathlib.Tactic.ByContra
import Mathlib.Algebra.Order.Ring.Int

/-!
C47: comparison of keys.
-/

namespace Verif.Sim

/-! ### Specification

A key stands for the sequence that has its elements at the end and zeros before. The order is that of the first
difference. -/

/-- Element at a distance from the end. -/
def fromEnd (a : List Int) (i : Nat) : Int := a.reverse.getD i 0

/-- The most significant difference decides. -/
def KeyLt (a b : List Int) : Prop :=
  ∃ i, fromEnd a i < fromEnd b i ∧ ∀ j, i < j → fromEnd a j = fromEnd b j

/-- Same element everywhere. -/
def KeyEq (a b : List Int) : Prop := ∀ i, fromEnd a i = fromEnd b i

theorem fromEnd_pad (n : Nat) (a : List Int) (i : Nat) : fromEnd (List.replicate n 0 ++ a) i = fromEnd a i := by
  unfold fromEnd
  rw [List.reverse_append, List.reverse_replicate]
  by_cases h : i < a.reverse.length
  · simp only [List.getD_eq_getElem?_getD, List.getElem?_append_left h]
  · simp only [List.getD_eq_getElem?_getD, List.getElem?_append_right (Nat.le_of_not_lt h), List.getElem?_replicate]
    rw [List.getElem?_eq_none (Nat.le_of_not_lt h)]
    split <;> rfl

theorem fromEnd_cons (x : Int) (a : List Int) (i : Nat) :
    fromEnd (x :: a) i = if i = a.length then x else fromEnd a i := by
  unfold fromEnd
  rw [List.reverse_cons]
  by_cases h : i < a.reverse.length
  · rw [if_neg (by simp at h; omega)]
    simp only [List.getD_eq_getElem?_getD, List.getElem?_append_left h]
  · simp only [List.getD_eq_getElem?_getD, List.getElem?_append_right (Nat.le_of_not_lt h)]
    rw [List.getElem?_eq_none (Nat.le_of_not_lt h)]
    simp only [List.length_reverse] at h ⊢
    by_cases he : i = a.length
    · simp [he]
    · rw [if_neg he, List.getElem?_eq_none (by simp; omega)]

theorem fromEnd_ge (a : List Int) (i : Nat) (h : a.length ≤ i) : fromEnd a i = 0 := by
  unfold fromEnd
  rw [List.getD_eq_getElem?_getD, List.getElem?_eq_none (by simpa using h)]
  rfl

theorem keyLt_cons (x y : Int) (a b : List Int) (h : a.length = b.length) :
    KeyLt (x :: a) (y :: b) ↔ x < y ∨ (x = y ∧ KeyLt a b) := by
  have ha := fromEnd_ge a a.length (le_refl _)
  have hb := fromEnd_ge b a.length (by omega)
  constructor
  · rintro ⟨i, h1, h2⟩
    simp only [fromEnd_cons, ← h] at h1 h2
    by_cases hi : i = a.length
    · simp only [hi, if_true] at h1
      exact Or.inl h1
    · simp only [hi, if_false] at h1
      by_cases hl : i < a.length
      · have hx := h2 a.length hl
        simp only [if_true] at hx
        refine Or.inr ⟨hx, i, h1, fun j hj => ?_⟩
        have := h2 j hj
        by_cases hja : j = a.length
        · rw [hja, ha, hb]
        · simpa [hja] using this
      · rw [fromEnd_ge a i (by omega), fromEnd_ge b i (by omega)] at h1
        exact absurd h1 (lt_irrefl _)
  · rintro (hlt | ⟨rfl, i, h1, h2⟩)
    · refine ⟨a.length, by simp [fromEnd_cons, ← h, hlt], fun j hj => ?_⟩
      simp only [fromEnd_cons, ← h]
      rw [if_neg (by omega), if_neg (by omega), fromEnd_ge a j (by omega), fromEnd_ge b j (by omega)]
    · refine ⟨i, ?_, fun j hj => ?_⟩
      · have : i ≠ a.length := by
          rintro rfl
          rw [ha, hb] at h1
          exact absurd h1 (lt_irrefl _)
        simpa [fromEnd_cons, ← h, this] using h1
      · simp only [fromEnd_cons, ← h, h2 j hj]

theorem tupleLt_iff (a b : List Int) (h : a.length = b.length) : tupleLt a b = true ↔ KeyLt a b := by
  induction a generalizing b with
  | nil =>
    cases b with
    | nil =>
      simp only [tupleLt, Bool.false_eq_true, false_iff]
      rintro ⟨i, h1, _⟩
      exact absurd h1 (lt_irrefl _)
    | cons _ _ => simp at h
  | cons x a ih =>
    cases b with
    | nil => simp at h
    | cons y b =>
      have hl : a.length = b.length := by simpa using h
      rw [keyLt_cons x y a b hl, tupleLt]
      by_cases hxy : x = y
      · rw [if_pos hxy, ih b hl]
        subst hxy
        simp
      · rw [if_neg hxy, decide_eq_true_iff]
        simp [hxy]

theorem keyLt_congr (a a' b b' : List Int) (ha : ∀ i, fromEnd a i = fromEnd a' i)
    (hb : ∀ i, fromEnd b i = fromEnd b' i) : KeyLt a b ↔ KeyLt a' b' := by
  simp only [KeyLt, ha, hb]

theorem keyLt_trans (a b c : List Int) (h1 : KeyLt a b) (h2 : KeyLt b c) : KeyLt a c := by
  obtain ⟨i, hi, hi'⟩ := h1
  obtain ⟨j, hj, hj'⟩ := h2
  rcases lt_trichotomy i j with h | rfl | h
  · exact ⟨j, by rw [hi' j h]; exact hj, fun k hk => by rw [hi' k (by omega), hj' k hk]⟩
  · exact ⟨i, lt_trans hi hj, fun k hk => by rw [hi' k hk, hj' k hk]⟩
  · exact ⟨i, by rw [← hj' i h]; exact hi, fun k hk => by rw [hi' k hk, hj' k (by omega)]⟩

theorem keyLt_irrefl (a : List Int) : ¬ KeyLt a a := by
  rintro ⟨i, h, _⟩
  exact absurd h (lt_irrefl _)

/-- Exactly one of less, equal and greater. -/
theorem key_trichotomy (a b : List Int) : KeyLt a b ∨ KeyEq a b ∨ KeyLt b a := by
  by_cases h : ∃ i, fromEnd a i ≠ fromEnd b i
  · -- the largest difference
    have hb : ∀ i, fromEnd a i ≠ fromEnd b i → i < max a.length b.length := by
      intro i hi
      by_contra hc
      exact hi (by rw [fromEnd_ge a i (by omega), fromEnd_ge b i (by omega)])
    have : ∀ n, (∃ i, i < n ∧ fromEnd a i ≠ fromEnd b i) →
        ∃ i, i < n ∧ fromEnd a i ≠ fromEnd b i ∧ ∀ j, i < j → j < n → fromEnd a j = fromEnd b j := by
      intro n
      induction n with
      | zero => rintro ⟨i, hi, _⟩; omega
      | succ n ih =>
        rintro ⟨i, hi, hne⟩
        by_cases hn : fromEnd a n = fromEnd b n
        · have : i ≠ n := by rintro rfl; exact hne hn
          obtain ⟨k, hk, hne', hall⟩ := ih ⟨i, by omega, hne⟩
          refine ⟨k, by omega, hne', fun j hj hjn => ?_⟩
          by_cases hjn' : j = n
          · rw [hjn', hn]
          · exact hall j hj (by omega)
        · exact ⟨n, by omega, hn, fun j hj hjn => by omega⟩
    obtain ⟨i, hi⟩ := h
    obtain ⟨k, _, hne, hall⟩ := this (max a.length b.length) ⟨i, hb i hi, hi⟩
    have hall' : ∀ j, k < j → fromEnd a j = fromEnd b j := by
      intro j hj
      by_contra hc
      exact hc (hall j hj (hb j hc))
    rcases lt_or_gt_of_ne hne with hlt | hgt
    · exact Or.inl ⟨k, hlt, hall'⟩
    · exact Or.inr (Or.inr ⟨k, hgt, fun j hj => (hall' j hj).symm⟩)
  · right; left
    intro i
    by_contra hc
    exact h ⟨i, hc⟩

theorem unevenCmp_cases (a b : List Int) :
    (unevenCmp a b = 1 ∧ KeyLt b a) ∨ (unevenCmp a b = -1 ∧ KeyLt a b) ∨
      (unevenCmp a b = 0 ∧ ¬ KeyLt a b ∧ ¬ KeyLt b a) := by
  have key : ∀ a' b' : List Int, a'.length = b'.length → (∀ i, fromEnd a' i = fromEnd a i) →
      (∀ i, fromEnd b' i = fromEnd b i) →
      let r : Int := if tupleLt b' a' then 1 else if tupleLt a' b' then -1 else 0
      (r = 1 ∧ KeyLt b a) ∨ (r = -1 ∧ KeyLt a b) ∨ (r = 0 ∧ ¬ KeyLt a b ∧ ¬ KeyLt b a) := by
    intro a' b' hl ha hb
    have h1 := (tupleLt_iff b' a' hl.symm).trans (keyLt_congr b' b a' a hb ha)
    have h2 := (tupleLt_iff a' b' hl).trans (keyLt_congr a' a b' b ha hb)
    by_cases c1 : tupleLt b' a' = true
    · exact Or.inl ⟨by simp [c1], h1.1 c1⟩
    · by_cases c2 : tupleLt a' b' = true
      · exact Or.inr (Or.inl ⟨by simp [c1, c2], h2.1 c2⟩)
      · exact Or.inr (Or.inr ⟨by simp [c1, c2], fun h => c2 (h2.2 h), fun h => c1 (h1.2 h)⟩)
  unfold unevenCmp
  simp only
  apply key
  · by_cases h1 : a.length < b.length
    · simp only [h1, if_true, List.length_append, List.length_replicate]; omega
    · by_cases h2 : b.length < a.length
      · simp only [h1, h2, if_true, if_false, List.length_append, List.length_replicate]; omega
      · simp only [h1, h2, if_false]; omega
  · intro i
    split
    · exact fromEnd_pad _ _ _
    · rfl
  · intro i
    split
    · rfl
    · split
      · exact fromEnd_pad _ _ _
      · rfl

/-- C47: the comparison is 1, -1 or 0 exactly if the first key is greater, less, or equal, where keys are compared
with leading zeros, the most significant difference deciding. -/
theorem C47_meaning (a b : List Int) :
    (unevenCmp a b = 1 ↔ KeyLt b a) ∧ (unevenCmp a b = -1 ↔ KeyLt a b) ∧ (unevenCmp a b = 0 ↔ KeyEq a b) := by
  have hasym : ∀ a b, KeyLt a b → KeyLt b a → False := fun a b h1 h2 => keyLt_irrefl a (keyLt_trans a b a h1 h2)
  have heq : KeyEq a b → ¬ KeyLt a b ∧ ¬ KeyLt b a := by
    intro h
    constructor
    · rintro ⟨i, hi, _⟩; rw [h i] at hi; exact absurd hi (lt_irrefl _)
    · rintro ⟨i, hi, _⟩; rw [h i] at hi; exact absurd hi (lt_irrefl _)
  rcases unevenCmp_cases a b with ⟨h, h'⟩ | ⟨h, h'⟩ | ⟨h, h1, h2⟩
  · rw [h]
    refine ⟨by simp [h'], ⟨by omega, fun h'' => (hasym _ _ h' h'').elim⟩, ⟨by omega, fun h'' => ((heq h'').2 h').elim⟩⟩
  · rw [h]
    refine ⟨⟨by omega, fun h'' => (hasym _ _ h' h'').elim⟩, by simp [h'], ⟨by omega, fun h'' => ((heq h'').1 h').elim⟩⟩
  · rw [h]
    refine ⟨⟨by omega, fun h'' => absurd h'' h2⟩, ⟨by omega, fun h'' => absurd h'' h1⟩, ⟨fun _ => ?_, fun _ => rfl⟩⟩
    rcases key_trichotomy a b with h3 | h3 | h3
    · exact absurd h3 h1
    · exact h3
    · exact absurd h3 h2

/-- C47: exchanging the keys changes the sign. -/
theorem C47_antisymmetric (a b : List Int) : unevenCmp b a = -unevenCmp a b := by
  rcases unevenCmp_cases a b with ⟨h, h'⟩ | ⟨h, h'⟩ | ⟨h, h1, h2⟩
  · rw [h, (C47_meaning b a).2.1.2 h']
  · rw [h, (C47_meaning b a).1.2 h']; rfl
  · rw [h, (C47_meaning b a).2.2.2 fun i => ((C47_meaning a b).2.2.1 h i).symm]; rfl

/-- C47: the comparison is transitive, also through keys that compare equal. -/
theorem C47_transitive (a b c : List Int) (h1 : unevenCmp a b ≤ 0) (h2 : unevenCmp b c ≤ 0) :
    unevenCmp a c ≤ 0 ∧ (unevenCmp a b < 0 ∨ unevenCmp b c < 0 → unevenCmp a c < 0) := by
  have le : ∀ a b, unevenCmp a b ≤ 0 → KeyLt a b ∨ KeyEq a b := by
    intro a b h
    rcases unevenCmp_cases a b with ⟨h', _⟩ | ⟨_, h'⟩ | ⟨h', _, _⟩
    · omega
    · exact Or.inl h'
    · exact Or.inr ((C47_meaning a b).2.2.1 h')
  have lt : ∀ a b, KeyLt a b → unevenCmp a b < 0 := fun a b h => by rw [(C47_meaning a b).2.1.2 h]; decide
  have eq : ∀ a b, KeyEq a b → unevenCmp a b = 0 := fun a b h => (C47_meaning a b).2.2.2 h
  rcases le a b h1 with h | h <;> rcases le b c h2 with h' | h'
  · have := lt a c (keyLt_trans a b c h h')
    exact ⟨by omega, fun _ => this⟩
  · have := lt a c ((keyLt_congr a a b c (fun _ => rfl) h').1 h)
    exact ⟨by omega, fun _ => this⟩
  · have := lt a c ((keyLt_congr b a c c (fun i => (h i).symm) (fun _ => rfl)).1 h')
    exact ⟨by omega, fun _ => this⟩
  · have h3 := eq a c (fun i => (h i).trans (h' i))
    have h4 := eq a b h
    have h5 := eq b c h'
    exact ⟨by omega, fun _ => by omega⟩

/-- `(3,)` is less than `(1, 0)`, which equals `(0, 1, 0)`; `(-1, 5)` is less than `(5,)`. -/
example : unevenCmp [3] [1, 0] = -1 ∧ unevenCmp [1, 0] [0, 1, 0] = 0 ∧ unevenCmp [-1, 5] [5] = -1 := by decide

end Verif.Sim
