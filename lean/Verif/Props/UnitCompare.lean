import Verif.Model.UnitCompare
import Verif.Props.Units

/-!
C119: comparisons of quantities.
-/

namespace Verif.Units

/-- The six comparisons have the truth values of the comparisons of two numbers. -/
def ComparesAs (a : Unit) (b : Other) (x y : ℚ) : Prop :=
  lt a b = .ok (decide (x < y)) ∧ gt a b = .ok (decide (x > y)) ∧ le a b = .ok (decide (x ≤ y)) ∧ ge a b = .ok (decide (x ≥ y)) ∧
    eq a b = .ok (decide (x = y)) ∧ ne a b = .ok (decide (x ≠ y))

theorem compares_base (a : Unit) (b : Operand) : ComparesAs a (.num b) a.base b.base :=
  ⟨rfl, rfl, rfl, rfl, rfl, rfl⟩

theorem compares_scale (a : Unit) (b : Other) (x y f : ℚ) (hf : 0 < f) (h : ComparesAs a b (x * f) (y * f)) : ComparesAs a b x y := by
  obtain ⟨h1, h2, h3, h4, h5, h6⟩ := h
  have hlt : ∀ u v : ℚ, u * f < v * f ↔ u < v := fun u v => mul_lt_mul_iff_left₀ hf
  have hle : ∀ u v : ℚ, u * f ≤ v * f ↔ u ≤ v := fun u v => mul_le_mul_iff_left₀ hf
  have heq : ∀ u v : ℚ, u * f = v * f ↔ u = v := fun u v => mul_left_inj' (ne_of_gt hf)
  refine ⟨?_, ?_, ?_, ?_, ?_, ?_⟩
  · rw [h1]; simp only [hlt]
  · rw [h2]; simp only [gt_iff_lt, hlt]
  · rw [h3]; simp only [hle]
  · rw [h4]; simp only [ge_iff_le, hle]
  · rw [h5]; simp only [heq]
  · rw [h6]; simp only [ne_eq, heq]

/-- C119, partial: quantities of one unit compare by their sizes. Missing: the prefixes T, P and E (`C119_negation_prefix`). -/
theorem C119_sizes_partial (a b : Unit) (f g : ℚ) (hf : si.lookup a.pre = some f) (hg : si.lookup b.pre = some g)
    (ha : a.pre ≠ ['T'] ∧ a.pre ≠ ['P'] ∧ a.pre ≠ ['E']) (hb : b.pre ≠ ['T'] ∧ b.pre ≠ ['P'] ∧ b.pre ≠ ['E']) :
    ComparesAs a (.num (.unit b)) (a.value * f) (b.value * g) := by
  have h1 : a.base = a.value * f := by
    rw [Unit.base, Unit.factor, C41_prefixes_partial _ ha.1 ha.2.1 ha.2.2, hf]; rfl
  have h2 : (Operand.unit b).base = b.value * g := by
    rw [Operand.base, Unit.base, Unit.factor, C41_prefixes_partial _ hb.1 hb.2.1 hb.2.2, hg]; rfl
  have h := compares_base a (.unit b)
  rwa [h1, h2] at h

example : ComparesAs ⟨3 / 2, ['k'], ['B']⟩ (.num (.unit ⟨2000, [], ['B']⟩)) (3 / 2 * 10 ^ 3) (2000 * 1) :=
  C119_sizes_partial _ _ _ _ rfl rfl (by decide) (by decide)

example : lt ⟨3 / 2, ['k'], ['B']⟩ (.num (.unit ⟨2000, [], ['B']⟩)) = .ok true := by
  rw [(C119_sizes_partial _ _ (10 ^ 3) 1 rfl rfl (by decide) (by decide)).1]; norm_num

/-- C119: quantities of the same known prefix compare by their values. -/
theorem C119_same_prefix (a b : Unit) (h : (factor? a.pre).isSome) (hp : a.pre = b.pre) :
    ComparesAs a (.num (.unit b)) a.value b.value := by
  obtain ⟨f, hf⟩ := Option.isSome_iff_exists.1 h
  refine compares_scale a _ _ _ f (factor_pos _ _ hf) ?_
  have h1 : a.base = a.value * f := by rw [Unit.base, Unit.factor, hf]; rfl
  have h2 : (Operand.unit b).base = b.value * f := by rw [Operand.base, Unit.base, Unit.factor, ← hp, hf]; rfl
  have h := compares_base a (.unit b)
  rwa [h1, h2] at h

example : ComparesAs ⟨2, ['T'], ['B']⟩ (.num (.unit ⟨3, ['T'], ['B']⟩)) 2 3 := C119_same_prefix _ _ rfl rfl

/-- T, P and E: each is ten times too large. -/
def Large (p : List Char) : Prop := p = ['T'] ∨ p = ['P'] ∨ p = ['E']

instance (p : List Char) : Decidable (Large p) := inferInstanceAs (Decidable (_ ∨ _))

/-- The factors in the code. -/
theorem factor_si : ∀ p ∈ si, factor? p.1 = some (if Large p.1 then 10 * p.2 else p.2) := by
  simp only [si, List.forall_mem_cons]
  refine ⟨?_, ?_, ?_, ?_, ?_, ?_, ?_, ?_, ?_, by simp⟩ <;> simp [factor?, prefixes, List.lookup, Large] <;> norm_num

theorem si_mem (p : List Char) (f : ℚ) (h : si.lookup p = some f) : (p, f) ∈ si := by
  obtain ⟨l1, l2, hl, -⟩ := List.lookup_eq_some_iff.1 h
  rw [hl]; simp

theorem si_pos : ∀ p ∈ si, 0 < p.2 := by
  simp only [si, List.forall_mem_cons]
  refine ⟨?_, ?_, ?_, ?_, ?_, ?_, ?_, ?_, ?_, by simp⟩ <;> norm_num

/-- C119: exactly which prefixes compare by their sizes: T, P and E with each other, and all others with each other. -/
theorem C119_sizes_iff (p q : List Char) (f g : ℚ) (hf : si.lookup p = some f) (hg : si.lookup q = some g) :
    (∀ v w u, ComparesAs ⟨v, p, u⟩ (.num (.unit ⟨w, q, u⟩)) (v * f) (w * g)) ↔
      ((p = ['T'] ∨ p = ['P'] ∨ p = ['E']) ↔ (q = ['T'] ∨ q = ['P'] ∨ q = ['E'])) := by
  change _ ↔ (Large p ↔ Large q)
  have hp := factor_si _ (si_mem p f hf)
  have hq := factor_si _ (si_mem q g hg)
  have hp0 := si_pos _ (si_mem p f hf)
  have hq0 := si_pos _ (si_mem q g hg)
  simp only at hp hq hp0 hq0
  have hfg := mul_pos hp0 hq0
  constructor
  · intro h
    have h1 := (h g f []).2.2.2.2.1
    rw [mul_comm f g] at h1
    simp only [eq, Other.float, Operand.base, Unit.base, Unit.factor, hp, hq, Option.getD_some, Except.ok.injEq, decide_eq_decide, iff_true] at h1
    by_cases a : Large p <;> by_cases b : Large q <;> simp only [a, b, if_true, if_false] at h1 ⊢ <;> exfalso <;> nlinarith
  · intro h v w u
    have hb := compares_base ⟨v, p, u⟩ (.unit ⟨w, q, u⟩)
    simp only [Operand.base, Unit.base, Unit.factor, hp, hq, Option.getD_some] at hb
    by_cases a : Large p
    · rw [if_pos a, if_pos (h.1 a)] at hb
      refine compares_scale _ _ _ _ 10 (by norm_num) ?_
      rwa [show v * f * 10 = v * (10 * f) by ring, show w * g * 10 = w * (10 * g) by ring]
    · rwa [if_neg a, if_neg fun b => a (h.2 b)] at hb

example : si.lookup ['T'] = some (10 ^ 12) ∧ si.lookup ['P'] = some (10 ^ 15) := ⟨rfl, rfl⟩

/-- C119: whatever the prefixes and units are, the comparisons of quantities are consistent: exactly one of less, equal and greater holds, the operands
may be exchanged, and less and equal are transitive. -/
theorem C119_order (a b c : Unit) :
    (lt a (.num (.unit b)) = .ok true ∨ eq a (.num (.unit b)) = .ok true ∨ gt a (.num (.unit b)) = .ok true) ∧
    (lt a (.num (.unit b)) = .ok true → eq a (.num (.unit b)) = .ok false ∧ gt a (.num (.unit b)) = .ok false ∧ ne a (.num (.unit b)) = .ok true) ∧
    (lt a (.num (.unit b)) = gt b (.num (.unit a)) ∧ le a (.num (.unit b)) = ge b (.num (.unit a)) ∧ eq a (.num (.unit b)) = eq b (.num (.unit a))) ∧
    (lt a (.num (.unit b)) = .ok true → le b (.num (.unit c)) = .ok true → lt a (.num (.unit c)) = .ok true) ∧
    (eq a (.num (.unit b)) = .ok true → eq b (.num (.unit c)) = .ok true → eq a (.num (.unit c)) = .ok true) := by
  simp only [lt, gt, le, ge, eq, ne, Other.float, Operand.base, Except.map, Except.ok.injEq, decide_eq_true_eq, decide_eq_false_iff_not, not_lt]
  refine ⟨lt_trichotomy _ _, fun h => ⟨ne_of_lt h, le_of_lt h, ne_of_lt h⟩, ⟨trivial, trivial, ?_⟩, fun h1 h2 => lt_of_lt_of_le h1 h2, fun h1 h2 => h1.trans h2⟩
  simp only [eq_comm]

example : eq ⟨1, ['T'], ['B']⟩ (.num (.unit ⟨10, ['k'], ['B']⟩)) = .ok false ∧ gt ⟨1, ['T'], ['B']⟩ (.num (.unit ⟨10, ['k'], ['B']⟩)) = .ok true := by
  decide +kernel

/-- C119: other objects are unequal, texts and other objects cannot be ordered. -/
theorem C119_objects (a : Unit) : eq a .object = .ok false ∧ ne a .object = .ok true ∧
    ∀ b, b = .object ∨ b = .text → ∃ e, lt a b = .error e ∧ gt a b = .error e ∧ le a b = .error e ∧ ge a b = .error e := by
  refine ⟨rfl, rfl, ?_⟩
  rintro b (rfl | rfl)
  · exact ⟨"TypeError", rfl, rfl, rfl, rfl⟩
  · exact ⟨"ValueError", rfl, rfl, rfl, rfl⟩

example : eq ⟨1, ['G'], ['H', 'z']⟩ .object = .ok false := (C119_objects _).1

/-- C119 does not hold: 2 TB are larger than 15000 GB. -/
theorem C119_negation_prefix : ∃ (a b : Unit) (f g : ℚ), a.unit = b.unit ∧ si.lookup a.pre = some f ∧ si.lookup b.pre = some g ∧
    a.value * f < b.value * g ∧ gt a (.num (.unit b)) = .ok true := by
  refine ⟨⟨2, ['T'], ['B']⟩, ⟨15000, ['G'], ['B']⟩, 10 ^ 12, 10 ^ 9, rfl, rfl, rfl, by norm_num, by decide +kernel⟩

/-- C119 does not hold: units are ignored, a quantity equals those of any other unit with its size and the plain number. -/
theorem C119_negation_units (v : ℚ) (p u u' : List Char) :
    eq ⟨v, p, u⟩ (.num (.unit ⟨v, p, u'⟩)) = .ok true ∧ eq ⟨v, p, u⟩ (.num (.num (Unit.base ⟨v, p, u⟩))) = .ok true := by
  constructor <;> simp [eq, Other.float, Operand.base, Unit.base, Unit.factor]

example : eq ⟨1, ['G'], ['H', 'z']⟩ (.num (.unit ⟨1, ['G'], ['B']⟩)) = .ok true := (C119_negation_units _ _ _ _).1

/-- C119 does not hold: the comparison with a text, such as the placeholder of a missing entry, is an error instead of false. -/
theorem C119_negation_text (a : Unit) : eq a .text = .error "ValueError" ∧ ne a .text = .error "ValueError" := ⟨rfl, rfl⟩

end Verif.Units
