import Verif.Model.Refresh
import Mathlib.Data.List.Basic

/-!
Lemmas on renewed machine descriptions.
-/

namespace Verif.Refresh

theorem lookup_put (k : String) (v : Val) (l : List (String × Val)) (x : String) :
    (put k v l).lookup x = if x = k then some v else l.lookup x := by
  induction l with
  | nil =>
    by_cases h : x = k
    · simp [put, h]
    · have : (x == k) = false := by simpa using h
      simp [put, h, List.lookup, this]
  | cons p l ih =>
    obtain ⟨k', v'⟩ := p
    by_cases h : k' = k
    · subst h
      by_cases hx : x = k'
      · simp [put, hx]
      · have : (x == k') = false := by simpa using hx
        simp [put, hx, List.lookup, this]
    · by_cases hx : x = k'
      · subst hx
        simp [put, h]
      · have : (x == k') = false := by simpa using hx
        simp only [put, if_neg h, List.lookup, this, ih]

theorem lookup_putAll (e : List (String × Val)) : ∀ (d : List (String × Val)) (x : String),
    (putAll d e).lookup x = (e.reverse.lookup x).or (d.lookup x) := by
  induction e with
  | nil => intro d x; simp [putAll]
  | cons p e ih =>
    intro d x
    obtain ⟨k, v⟩ := p
    have : putAll d ((k, v) :: e) = putAll (put k v d) e := rfl
    rw [this, ih, lookup_put, List.reverse_cons, List.lookup_append]
    cases e.reverse.lookup x with
    | some v => simp
    | none =>
      by_cases h : x = k
      · simp [h]
      · have : (x == k) = false := by simpa using h
        simp [h, List.lookup, this]

theorem filled_put (k : String) (s : String) (l : List (String × Val)) (x : String) :
    Filled (put k (.info s) l) x ↔ x = k ∨ Filled l x := by
  unfold Filled
  simp only [lookup_put]
  by_cases h : x = k <;> simp [h]

theorem lookup_infos (l : List (String × String)) (k : String) (v : Val) (h : (l.map fun p => (p.1, Val.info p.2)).lookup k = some v) :
    ∃ s, v = .info s := by
  induction l with
  | nil => simp at h
  | cons p l ih =>
    simp only [List.map_cons, List.lookup] at h
    split at h
    · simp only [Option.some.injEq] at h
      exact ⟨_, h.symm⟩
    · exact ih h

theorem lookup_infos_some (l : List (String × String)) (k : String) :
    (∃ s, (l.map fun p => (p.1, Val.info p.2)).lookup k = some (.info s)) ↔ k ∈ l.map (·.1) := by
  induction l with
  | nil => simp
  | cons p l ih =>
    simp only [List.map_cons, List.lookup, List.mem_cons]
    by_cases h : k = p.1
    · simp [h]
    · have : (k == p.1) = false := by simpa using h
      simp only [this, h, false_or]
      exact ih

theorem lookup_required (l : List String) (k : String) : (l.map fun x => (x, Val.required)).lookup k = if k ∈ l then some .required else none := by
  induction l with
  | nil => simp
  | cons x l ih =>
    by_cases h : k = x
    · simp [h]
    · have : (k == x) = false := by simpa using h
      simp [List.lookup, this, ih, h]

theorem filled_level (req : List String) (l : List (String × String)) (k : String) :
    Filled (req.map (fun x => (x, Val.required)) ++ l.map fun p => (p.1, .info p.2)) k ↔ k ∉ req ∧ k ∈ l.map (·.1) := by
  unfold Filled
  rw [List.lookup_append, lookup_required]
  by_cases h : k ∈ req
  · simp [h]
  · simp only [h, if_false, Option.none_or, not_false_eq_true, true_and]
    exact lookup_infos_some l k

/-- What the readouts say about an entry. -/
theorem lookup_readouts (m : Machine) (h1 : "model name" ∉ m.fixed.map (·.1)) (x : String) :
    (∃ s, (readouts m).reverse.lookup x = some (.info s)) ∨
      ((readouts m).reverse.lookup x = none ∧ x ∉ (readouts m).map (·.1)) ∨
      x = "model name" ∧ m.modelName = none ∧ (readouts m).reverse.lookup x = some .required := by
  have hfix : (∃ s, (m.fixed.map fun p => (p.1, Val.info p.2)).reverse.lookup x = some (.info s)) ∨
      (m.fixed.map fun p => (p.1, Val.info p.2)).reverse.lookup x = none ∧ x ∉ m.fixed.map (·.1) := by
    rw [← List.map_reverse]
    by_cases h : x ∈ m.fixed.map (·.1)
    · exact .inl ((lookup_infos_some _ _).2 (by simpa using h))
    · right
      refine ⟨?_, h⟩
      cases hl : (m.fixed.reverse.map fun p => (p.1, Val.info p.2)).lookup x with
      | none => rfl
      | some v =>
        obtain ⟨s, rfl⟩ := lookup_infos _ _ _ hl
        exact absurd ((lookup_infos_some _ _).1 ⟨s, hl⟩) (by simpa using h)
  have hnone : x = "model name" → (m.fixed.map fun p => (p.1, Val.info p.2)).reverse.lookup x = none := by
    rintro rfl
    rcases hfix with ⟨s, hs⟩ | ⟨h, -⟩
    · rw [← List.map_reverse] at hs
      exact absurd ((lookup_infos_some _ _).1 ⟨s, hs⟩) (by simpa using h1)
    · exact h
  by_cases hc : x = "clock"
  · subst hc
    cases hk : m.clock with
    | some c => exact .inl ⟨c, by simp [readouts, hk]⟩
    | none =>
      rcases hfix with ⟨s, hs⟩ | ⟨h, h'⟩
      · left
        exact ⟨s, by simp [readouts, hk, List.lookup, hs]⟩
      · right; left
        exact ⟨by simp [readouts, hk, List.lookup, h], by simpa [readouts, hk] using h'⟩
  · have hc' : (x == "clock") = false := by simpa using hc
    by_cases hn : x = "model name"
    · have := hnone hn
      subst hn
      cases hm : m.modelName with
      | some n =>
        left
        exact ⟨n, by cases hk : m.clock <;> simp [readouts, hm, hk, List.lookup]⟩
      | none =>
        right; right
        exact ⟨rfl, rfl, by cases hk : m.clock <;> simp [readouts, hm, hk, List.lookup]⟩
    · have hn' : (x == "model name") = false := by simpa using hn
      rcases hfix with ⟨s, hs⟩ | ⟨h, h'⟩
      · left
        exact ⟨s, by cases hk : m.clock <;> simp [readouts, hk, List.lookup, hn', hc', hs]⟩
      · right; left
        refine ⟨by cases hk : m.clock <;> simp [readouts, hk, List.lookup, hn', hc', h], ?_⟩
        cases hk : m.clock <;> simp [readouts, hk, hn, hc] <;> simpa using h'

end Verif.Refresh
