import Verif.Model.Contexts

/-!
Lemmas for C162 and C163.
-/

namespace Verif.Contexts

theorem setLimit_some (d n : Nat) (s : Settings) (h : d < n) : setLimit d n s = some { s with limit := n } := by
  unfold setLimit
  rw [if_neg (by omega), if_neg (by omega)]

theorem setLimit_none (d n : Nat) (s : Settings) (h : n ≤ d) : setLimit d n s = none := by
  simp [setLimit, h]

theorem exec_fst (p : Prog) : ∀ d s, d < s.limit → (exec d p s).1 = s := by
  induction p with
  | skip => intros; rfl
  | raise => intros; rfl
  | needs k => intros; rfl
  | call p ih =>
    intro d s h
    simp only [exec]
    split
    · rename_i h1; exact ih _ _ h1
    · rfl
  | seq p q ihp ihq =>
    intro d s h
    have h1 := ihp d s h
    simp only [exec]
    generalize exec d p s = r at h1 ⊢
    rcases r with ⟨s1, b⟩
    simp only at h1
    subst h1
    cases b
    · exact ihq _ _ h
    · rfl
  | handle p q ihp ihq =>
    intro d s h
    have h1 := ihp d s h
    simp only [exec]
    generalize exec d p s = r at h1 ⊢
    rcases r with ⟨s1, b⟩
    simp only at h1
    subst h1
    cases b
    · rfl
    · exact ihq _ _ h
  | deep n p ih =>
    intro d s h
    simp only [exec]
    rcases Nat.lt_or_ge d n with hn | hn
    · rw [setLimit_some _ _ _ hn]
      have h1 := ih d { s with limit := n } hn
      simp only
      generalize exec d p { s with limit := n } = r at h1 ⊢
      rcases r with ⟨s2, b⟩
      simp only at h1
      subst h1
      simp only [setLimit_some _ _ _ h]
    · rw [setLimit_none _ _ _ hn]
  | nosort p ih =>
    intro d s h
    have h1 := ih d { s with key := "sympy_safe_key" } h
    simp only [exec]
    generalize exec d p { s with key := "sympy_safe_key" } = r at h1 ⊢
    rcases r with ⟨s1, b⟩
    simp only at h1
    subst h1
    rfl

theorem exec_eq (p : Prog) (d : Nat) (s : Settings) (h : d < s.limit) : exec d p s = (s, (exec d p s).2) := by
  exact Prod.ext (exec_fst p d s h) rfl

/-- In the block the program runs with the new limit. -/
theorem deep_snd (n : Nat) (p : Prog) (d : Nat) (s : Settings) (h : d < s.limit) :
    (exec d (.deep n p) s).2 = if d < n then (exec d p { s with limit := n }).2 else true := by
  simp only [exec]
  by_cases hn : d < n
  · rw [if_pos hn, setLimit_some _ _ _ hn]
    simp only
    rw [exec_eq p d { s with limit := n } hn]
    simp only [setLimit_some _ _ _ h]
  · rw [if_neg hn, setLimit_none _ _ _ (by omega)]

theorem nosort_snd (p : Prog) (d : Nat) (s : Settings) :
    (exec d (.nosort p) s).2 = (exec d p { s with key := "sympy_safe_key" }).2 := by
  simp only [exec]

/-- More room does not make a program fail. -/
theorem exec_mono (p : Prog) : ∀ d k a b, d < a → a ≤ b → (exec d p ⟨a, k⟩).2 = false → (exec d p ⟨b, k⟩).2 = false := by
  induction p with
  | skip => intros; rfl
  | raise => intro d k a b _ _ h; exact h
  | needs x => intro d k a b _ _ h; exact h
  | call p ih =>
    intro d k a b ha hab h
    simp only [exec] at h ⊢
    split at h
    · rename_i h1
      rw [if_pos (Nat.lt_of_lt_of_le h1 hab)]
      exact ih _ _ _ _ h1 hab h
    · simp at h
  | seq p q ihp ihq =>
    intro d k a b ha hab h
    have hb : d < b := by omega
    simp only [exec] at h ⊢
    rw [exec_eq p d ⟨a, k⟩ ha] at h
    rw [exec_eq p d ⟨b, k⟩ hb]
    cases hp : (exec d p ⟨a, k⟩).2
    · rw [hp] at h
      rw [ihp d k a b ha hab hp]
      exact ihq d k a b ha hab h
    · rw [hp] at h
      simp at h
  | handle p q ihp ihq =>
    intro d k a b ha hab h
    have hb : d < b := by omega
    simp only [exec] at h ⊢
    rw [exec_eq p d ⟨a, k⟩ ha] at h
    rw [exec_eq p d ⟨b, k⟩ hb]
    cases hp : (exec d p ⟨a, k⟩).2
    · rw [ihp d k a b ha hab hp]
    · rw [hp] at h
      cases (exec d p ⟨b, k⟩).2
      · rfl
      · exact ihq d k a b ha hab h
  | deep n p ih =>
    intro d k a b ha hab h
    have hb : d < b := by omega
    rw [deep_snd _ _ _ _ ha] at h
    rw [deep_snd _ _ _ _ hb]
    exact h
  | nosort p ih =>
    intro d k a b ha hab h
    rw [nosort_snd] at h ⊢
    exact ih d _ a b ha hab h

theorem nested_ok (k : Nat) : ∀ d s, d < s.limit → ((exec d (nested k) s).2 = false ↔ d + k < s.limit) := by
  induction k with
  | zero => intro d s h; simp [nested, exec, h]
  | succ k ih =>
    intro d s h
    simp only [nested, exec]
    split
    · rename_i h1
      rw [ih _ _ h1]
      omega
    · simp; omega

theorem lt_iff (a b : Obj) : lt a b = true ↔ a.type < b.type ∨ a.type = b.type ∧ a.id < b.id := by
  unfold lt
  split
  · rename_i h
    simp [h]
  · rename_i h
    simp [h]

end Verif.Contexts
