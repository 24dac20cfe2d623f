import Verif.Spec.Share
import Verif.Lemmas.Predict
import Verif.Props.Machine

/-! Lemmas for C145. -/

namespace Verif.Share

open Verif.LayerCond Verif.Predict

variable {K : Type} [LinearOrder K]

/-- The sets of a level are divided by this number. -/
def divisor (numaCores cores : Nat) (e : Entry) : Nat := if 1 < e.coresPerGroup then min cores numaCores else 1

theorem sizes_eq (entries : List Entry) (numaCores cores : Nat) (h : 0 < min cores numaCores) :
    sizes entries numaCores cores =
      some (entries.map fun e => e.sets / divisor numaCores cores e * e.ways * e.clSize) := by
  unfold sizes
  rw [Machine.buildSim_eq _ _ _ h]
  simp only [Option.map_some, Option.some.injEq, List.map_map]
  induction entries with
  | nil => rfl
  | cons e es ih =>
    simp only [List.map_cons, List.zipWith_cons_cons, ih, List.cons.injEq, and_true, Function.comp, Machine.setsFor, divisor]
    by_cases h1 : 1 < e.coresPerGroup <;> simp [h1]

theorem divisor_mono (numaCores cores cores' : Nat) (h : cores ≤ cores') (e : Entry) :
    divisor numaCores cores e ≤ divisor numaCores cores' e := by
  unfold divisor
  split
  · omega
  · exact le_refl _

theorem divisor_pos (numaCores cores : Nat) (h : 0 < min cores numaCores) (e : Entry) : 0 < divisor numaCores cores e := by
  unfold divisor
  split
  · exact h
  · exact Nat.one_pos

theorem share_mono (numaCores cores cores' : Nat) (h : cores ≤ cores') (h0 : 0 < min cores numaCores) (e : Entry) :
    e.sets / divisor numaCores cores' e * e.ways * e.clSize ≤ e.sets / divisor numaCores cores e * e.ways * e.clSize :=
  Nat.mul_le_mul_right _ (Nat.mul_le_mul_right _
    (Nat.div_le_div_left (divisor_mono numaCores cores cores' h e) (divisor_pos numaCores cores h0 e)))

theorem caches_larger (w : Work K) : ∀ (ss ss' : List Nat) (orders orders' : List (Order K)),
    List.Forall₂ (fun s s' => s' ≤ s) ss ss' → orders.length = ss.length → orders'.length = ss.length →
    (∀ o ∈ orders, IsTails w.ds o.tails) → (∀ o ∈ orders', IsTails w.ds o.tails) →
    Larger w (caches orders' ss') (caches orders ss)
  | [], [], [], [], _, _, _, _, _ => .nil
  | s :: ss, s' :: ss', o :: os, o' :: os', .cons h h', h1, h2, h3, h4 =>
    .cons ⟨h4 o' (by simp), h3 o (by simp), by show (s' : Int) ≤ s; exact_mod_cast h⟩
      (caches_larger w ss ss' os os' h' (by simpa using h1) (by simpa using h2) (fun x hx => h3 x (by simp [hx]))
        fun x hx => h4 x (by simp [hx]))

theorem sizes_some (entries : List Entry) (numaCores cores : Nat) (l : List Nat) (h : sizes entries numaCores cores = some l)
    (hs : 0 < cores) (hn : 0 < numaCores) : l = entries.map fun e => e.sets / divisor numaCores cores e * e.ways * e.clSize := by
  rw [sizes_eq _ _ _ (by omega)] at h
  exact (Option.some.inj h).symm

end Verif.Share
