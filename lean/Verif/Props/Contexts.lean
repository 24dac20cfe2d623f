import Verif.Lemmas.Contexts

/-!
C162: global settings are changed for a block only. C163: all keys can be compared for printing.
-/

namespace Verif.Contexts

/-- C162: whatever a program does and whether it raises, the settings are the same afterwards. -/
theorem C162_restored (p : Prog) (d : Nat) (s : Settings) (h : d < s.limit) : (exec d p s).1 = s := exec_fst p d s h

/-- C162: within the block keys are compared by the new order, also in blocks within it. -/
theorem C162_key (p : Prog) (d : Nat) (s : Settings) :
    (exec d (.nosort p) s).2 = (exec d p ⟨s.limit, "sympy_safe_key"⟩).2 := nosort_snd p d s

/-- The claim of C162 about depth: what runs without the context manager runs with it. -/
def C162Claim : Prop :=
  ∀ p d s, d < s.limit → (exec d p s).2 = false → d < 100000 → (exec d (.deep 100000 p) s).2 = false

/-- C162, partial: what runs without the context manager runs with it if its limit is not below the one before. Missing: lower limits
(`C162_negation`). -/
theorem C162_room_partial (n : Nat) (p : Prog) (d : Nat) (s : Settings) (h : d < s.limit) (hn : s.limit ≤ n)
    (hp : (exec d p s).2 = false) : (exec d (.deep n p) s).2 = false := by
  rw [deep_snd n p d s h, if_pos (by omega)]
  exact exec_mono p d s.key s.limit n h hn hp

/-- C162: calls within each other run in the block exactly as deep as the limit of the block allows, whatever it was before. -/
theorem C162_depth_iff (n k d : Nat) (s : Settings) (h : d < s.limit) : (exec d (.deep n (nested k)) s).2 = false ↔ d + k < n := by
  rw [deep_snd n _ d s h]
  split
  · rename_i hn
    rw [nested_ok k d _ hn]
  · simp; omega

/-- With a higher limit before, the context manager lowers it: 150000 calls within each other. -/
theorem C162_negation : ¬ C162Claim := by
  intro h
  have h1 := h (nested 150000) 0 ⟨200000, "_safe_key"⟩ (by decide) ((nested_ok _ _ _ (by decide)).mpr (by decide)) (by decide)
  rw [C162_depth_iff _ _ _ _ (by decide)] at h1
  omega

/-- A block that raises within another one: both settings are those of before, and the error is not lost. -/
example : exec 3 (.nosort (.deep 100000 (.seq (.needs "sympy_safe_key") (.call .raise)))) ⟨1000, "_safe_key"⟩ =
    (⟨1000, "_safe_key"⟩, true) := by decide

/-- 5000 calls need the context manager with the usual limit. -/
example : (exec 10 (nested 5000) ⟨1000, "_safe_key"⟩).2 ≠ false ∧ (exec 10 (.deep 100000 (nested 5000)) ⟨1000, "_safe_key"⟩).2 = false := by
  rw [C162_depth_iff _ _ _ _ (by decide), Ne, nested_ok _ _ _ (by decide)]
  decide

/-- The hypotheses of `C162_room_partial` can be met. -/
example : (exec 10 (.deep 100000 (.handle (.call .raise) .skip)) ⟨1000, "_safe_key"⟩).2 = false :=
  C162_room_partial _ _ _ _ (by decide) (by decide) (by decide)

/-- C163: of two different objects exactly one comes first, also if they have different types, and no object comes before itself. -/
theorem C163_total (a b : Obj) : (lt a b = true ∨ a = b ∨ lt b a = true) ∧ ¬ (lt a b = true ∧ lt b a = true) := by
  rcases a with ⟨ta, ia⟩
  rcases b with ⟨tb, ib⟩
  simp only [lt_iff, Obj.mk.injEq]
  rcases lt_trichotomy ta tb with h | h | h
  · exact ⟨.inl (.inl h), fun hh => by
      rcases hh.2 with h2 | h2
      · exact lt_asymm h h2
      · exact h.ne h2.1.symm⟩
  · subst h
    simp only [true_and, lt_irrefl, false_or]
    omega
  · exact ⟨.inr (.inr (.inl h)), fun hh => by
      rcases hh.1 with h2 | h2
      · exact lt_asymm h h2
      · exact h.ne h2.1.symm⟩

/-- C163: the order is transitive. -/
theorem C163_transitive (a b c : Obj) (h : lt a b = true) (h' : lt b c = true) : lt a c = true := by
  rw [lt_iff] at h h' ⊢
  rcases h with h | ⟨h1, h2⟩ <;> rcases h' with h' | ⟨h3, h4⟩
  · exact .inl (lt_trans h h')
  · exact .inl (h3 ▸ h)
  · exact .inl (h1 ▸ h')
  · exact .inr ⟨h1.trans h3, h2.trans h4⟩

/-- C163: objects of a type stay together, also if one of another type is older than one and younger than the other. -/
theorem C163_grouped (a b c : Obj) (h : lt a b = true) (h' : lt b c = true) (he : a.type = c.type) : b.type = a.type := by
  rw [lt_iff] at h h'
  rcases h with h | ⟨h1, -⟩
  · rcases h' with h' | ⟨h3, -⟩
    · rw [he] at h
      exact absurd h' (lt_asymm h)
    · rw [h3, he]
  · exact h1.symm

/-- A symbol comes behind a number that was made later, two numbers are in the order of their identity. -/
example : lt ⟨['i', 'n', 't'], 9⟩ ⟨['s', 'y', 'm'], 4⟩ = true ∧ lt ⟨['i', 'n', 't'], 4⟩ ⟨['i', 'n', 't'], 9⟩ = true ∧
    lt ⟨['i', 'n', 't'], 4⟩ ⟨['s', 'y', 'm'], 4⟩ = true := by decide

end Verif.Contexts
