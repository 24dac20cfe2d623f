import Verif.Model.Required
import Mathlib.Tactic.ByContra

/-!
Lemmas for C121.
-/

namespace Verif.Required

open Verif.Symbols

theorem value_isSome (σ : String → Option Int) (e : Expr) : (e.value σ).isSome ↔ ∀ s ∈ free e, (σ s).isSome := by
  induction e with
  | num n => simp [Expr.value, free]
  | sym s => simp [Expr.value, free]
  | neg a ih => simpa [Expr.value, free] using ih
  | add a b iha ihb =>
    simp only [Expr.value, free, List.mem_append]
    constructor
    · intro h s hs
      cases ha : a.value σ <;> cases hb : b.value σ <;> simp [ha, hb] at h
      rcases hs with hs | hs
      · exact iha.1 (by simp [ha]) s hs
      · exact ihb.1 (by simp [hb]) s hs
    · intro h
      obtain ⟨x, hx⟩ := Option.isSome_iff_exists.1 (iha.2 fun s hs => h s (Or.inl hs))
      obtain ⟨y, hy⟩ := Option.isSome_iff_exists.1 (ihb.2 fun s hs => h s (Or.inr hs))
      simp [hx, hy]
  | mul a b iha ihb =>
    simp only [Expr.value, free, List.mem_append]
    constructor
    · intro h s hs
      cases ha : a.value σ <;> cases hb : b.value σ <;> simp [ha, hb] at h
      rcases hs with hs | hs
      · exact iha.1 (by simp [ha]) s hs
      · exact ihb.1 (by simp [hb]) s hs
    · intro h
      obtain ⟨x, hx⟩ := Option.isSome_iff_exists.1 (iha.2 fun s hs => h s (Or.inl hs))
      obtain ⟨y, hy⟩ := Option.isSome_iff_exists.1 (ihb.2 fun s hs => h s (Or.inr hs))
      simp [hx, hy]

theorem needs_iff (e : Expr) (s : String) : Needs e s ↔ s ∈ free e := by
  constructor
  · intro h
    by_contra hs
    have h1 := h (fun t => if t = s then none else some 0) (by simp)
    have h2 : (e.value fun t => if t = s then none else some 0).isSome := by
      rw [value_isSome]
      intro t ht
      have : t ≠ s := fun he => hs (he ▸ ht)
      simp [this]
    simp [h1] at h2
  · intro h σ hσ
    rw [← Option.not_isSome_iff_eq_none, value_isSome]
    intro hall
    have := hall s h
    simp [hσ] at this

end Verif.Required
