import Verif.Model.Units
import Mathlib.Tactic.Linarith
import Mathlib.Tactic.NormNum
import Mathlib.Tactic.FieldSimp
import Mathlib.Tactic.Tauto

/-!
C41: quantities.
-/

namespace Verif.Units

/-! ### Prefixes -/

/-- The SI factors. -/
def si : List (List Char × ℚ) :=
  [(['k'], 10 ^ 3), (['M'], 10 ^ 6), (['G'], 10 ^ 9), (['T'], 10 ^ 12), (['P'], 10 ^ 15), (['E'], 10 ^ 18),
   (['Z'], 10 ^ 21), (['Y'], 10 ^ 24), ([], 1)]

/-- C41 does not hold for the prefixes T, P and E: they are ten times too large. -/
theorem C41_negation_prefixes : ∀ p, p = ['T'] ∨ p = ['P'] ∨ p = ['E'] →
    ∃ f g, factor? p = some f ∧ si.lookup p = some g ∧ f = 10 * g := by
  rintro p (rfl | rfl | rfl)
  · exact ⟨10 ^ 13, 10 ^ 12, rfl, rfl, by norm_num⟩
  · exact ⟨10 ^ 16, 10 ^ 15, rfl, rfl, by norm_num⟩
  · exact ⟨10 ^ 19, 10 ^ 18, rfl, rfl, by norm_num⟩

/-- C41, partial: all other prefixes denote the SI factors. -/
theorem C41_prefixes_partial (p : List Char) (hT : p ≠ ['T']) (hP : p ≠ ['P']) (hE : p ≠ ['E']) :
    factor? p = si.lookup p := by
  unfold factor? prefixes si
  simp only [List.lookup]
  repeat' split
  all_goals first
    | rfl
    | (rename_i h; simp only [beq_iff_eq] at h; exact absurd h (by assumption))

theorem factor_pos (p : List Char) (f : ℚ) (h : factor? p = some f) : 0 < f := by
  unfold factor? prefixes at h
  simp only [List.lookup] at h
  repeat' split at h
  all_goals first
    | (simp only [Option.some.injEq] at h; rw [← h]; norm_num)
    | simp at h

theorem foldl_mem {α β : Type} (l : List α) (f : β → α → β) (P : β → Prop) (b : β) (hb : P b)
    (hf : ∀ b a, P b → a ∈ l → P (f b a)) : P (l.foldl f b) := by
  induction l generalizing b with
  | nil => exact hb
  | cons a l ih => exact ih _ (hf b a hb (by simp)) (fun b a hb ha => hf b a hb (by simp [ha]))

theorem goodPrefix_known (base e : ℚ) : ∃ f, factor? (goodPrefix base e) = some f := by
  have h : (fun g : List Char × ℚ => g ∈ prefixes)
      (prefixes.foldl (fun (g : List Char × ℚ) kv => if goodFor base e kv.2 g.2 then kv else g) ([], 1)) := by
    apply foldl_mem
    · simp [prefixes]
    · intro b a hb ha
      split <;> assumption
  unfold goodPrefix
  simp only at h
  generalize (prefixes.foldl (fun (g : List Char × ℚ) kv => if goodFor base e kv.2 g.2 then kv else g) ([], 1)) = g at h
  simp only [prefixes, List.mem_cons, List.not_mem_nil, or_false] at h
  rcases h with rfl | rfl | rfl | rfl | rfl | rfl | rfl | rfl | rfl <;> exact ⟨_, rfl⟩

/-- C41: changing the prefix keeps base value and unit; unknown prefixes are rejected. -/
theorem C41_with_prefix (q : Unit) (p : List Char) :
    (factor? p = none ∧ withPrefix q p = .error "KeyError") ∨
    ∃ r, withPrefix q p = .ok r ∧ r.base = q.base ∧ r.unit = q.unit ∧ r.pre = p := by
  unfold withPrefix
  cases hf : factor? p with
  | none => exact Or.inl ⟨rfl, rfl⟩
  | some f =>
    right
    have hpos := factor_pos p f hf
    refine ⟨⟨q.base / f, p, q.unit⟩, by simp [mk3, hf], ?_, rfl, rfl⟩
    simp only [Unit.base, Unit.factor, hf, Option.getD_some]
    field_simp

/-- C41: reducing the prefix never fails and keeps base value and unit. -/
theorem C41_reduced (q : Unit) : ∃ r, reduced q = .ok r ∧ r.base = q.base ∧ r.unit = q.unit := by
  unfold reduced
  rcases C41_with_prefix q (goodPrefix q.base 0) with ⟨h, _⟩ | ⟨r, h1, h2, h3, _⟩
  · obtain ⟨f, hf⟩ := goodPrefix_known q.base 0
    rw [hf] at h; simp at h
  · exact ⟨r, h1, h2, h3⟩

/-- Units that are taken as they are when a quantity is built from a number and a unit: nonempty, one line, not
beginning with a prefix character unless that is all. -/
def PlainUnit (u : List Char) : Prop :=
  u ≠ [] ∧ '\n' ∉ u ∧ ∀ c rest, u = c :: rest → rest ≠ [] → isPrefixChar c = false

theorem matchUnit_plain (u : List Char) (h1 : u ≠ []) (h2 : '\n' ∉ u) : matchUnit u = some u := by
  have ht : u.takeWhile (· != '\n') = u := by
    clear h1
    induction u with
    | nil => rfl
    | cons c u ih =>
      have hc : c ≠ '\n' := fun h => h2 (by simp [h])
      have hu : '\n' ∉ u := fun h => h2 (by simp [h])
      simp [hc, ih hu]
  have hd : u.dropWhile (· != '\n') = [] := by
    clear h1 ht
    induction u with
    | nil => rfl
    | cons c u ih =>
      have hc : c ≠ '\n' := fun h => h2 (by simp [h])
      have hu : '\n' ∉ u := fun h => h2 (by simp [h])
      simp [hc, ih hu]
  simp [matchUnit, ht, hd, h1]

theorem splitUnit_plain (u : List Char) (h : PlainUnit u) : splitUnit u = some ([], u) := by
  obtain ⟨h1, h2, h3⟩ := h
  cases u with
  | nil => exact absurd rfl h1
  | cons c rest =>
    unfold splitUnit
    simp only
    split
    · rename_i hc
      by_cases hr : rest = []
      · subst hr
        have : matchUnit ([] : List Char) = none := by simp [matchUnit]
        rw [this]
        simp only
        rw [matchUnit_plain _ h1 h2]
        rfl
      · rw [h3 c rest rfl hr] at hc
        simp at hc
    · rw [matchUnit_plain _ h1 h2]
      rfl

theorem build_plain (v : ℚ) (u : List Char) (h : PlainUnit u) :
    ∃ r, build v u = .ok r ∧ r.base = v ∧ r.unit = u := by
  have : mk2 v u = .ok ⟨v, [], u⟩ := by
    simp [mk2, splitUnit_plain u h, mk3, factor?, prefixes, List.lookup]
  obtain ⟨r, h1, h2, h3⟩ := C41_reduced ⟨v, [], u⟩
  refine ⟨r, by simp only [build, this]; exact h1, ?_, h3⟩
  rw [h2]
  simp [Unit.base, Unit.factor, factor?, prefixes, List.lookup]

/-- C41, partial: the sum and the difference of quantities of the same plain unit, or of a quantity and a number, have
the sum and the difference of the base values. Units that are empty or begin with a prefix character are missing
(`C41_negation_resplit`, `C41_negation_no_unit`). -/
theorem C41_add_sub_partial (a : Unit) (b : Operand) (hu : PlainUnit a.unit) (hb : ∀ q, b = .unit q → q.unit = a.unit) :
    (∃ r, add a b = .ok r ∧ r.base = a.base + b.base ∧ r.unit = a.unit) ∧
    (∃ r, sub a b = .ok r ∧ r.base = a.base - b.base ∧ r.unit = a.unit) := by
  have hc : commonUnit a b = some a.unit := by
    cases b with
    | num x => rfl
    | unit q => simp [commonUnit, hb q rfl]
  unfold add sub
  rw [hc]
  exact ⟨build_plain _ _ hu, build_plain _ _ hu⟩

/-- C41: adding, subtracting or taking remainders of different units is rejected. -/
theorem C41_unit_mismatch (a q : Unit) (h : a.unit ≠ q.unit) :
    add a (.unit q) = .error "ValueError" ∧ sub a (.unit q) = .error "ValueError" ∧
    mod a (.unit q) = .error "ValueError" := by
  simp [add, sub, mod, commonUnit, h]

/-- C41, partial: products and quotients have the products and quotients of the base values and the composed units,
whenever the composed unit is plain; division by zero is rejected. -/
theorem C41_mul_div_partial (a q : Unit) (h : PlainUnit (a.unit ++ q.unit)) (h' : PlainUnit (a.unit ++ '/' :: q.unit)) :
    (∃ r, mul a (.unit q) = .ok r ∧ r.base = a.base * q.base ∧ r.unit = a.unit ++ q.unit) ∧
    (q.base ≠ 0 → ∃ r, div a (.unit q) = .ok r ∧ r.base = a.base / q.base ∧ r.unit = a.unit ++ '/' :: q.unit) ∧
    (q.base = 0 → div a (.unit q) = .error "ZeroDivisionError") := by
  refine ⟨build_plain _ _ h, fun hq => ?_, fun hq => by simp [div, Operand.base, hq]⟩
  unfold div
  rw [if_neg (by simpa [Operand.base] using hq)]
  exact build_plain _ _ h'

/-- C41, partial: the same for multiplication and division by a number. -/
theorem C41_scale_partial (a : Unit) (x : ℚ) (h : PlainUnit a.unit) :
    (∃ r, mul a (.num x) = .ok r ∧ r.base = a.base * x ∧ r.unit = a.unit) ∧
    (x ≠ 0 → ∃ r, div a (.num x) = .ok r ∧ r.base = a.base / x ∧ r.unit = a.unit) := by
  refine ⟨build_plain _ _ h, fun hx => ?_⟩
  unfold div
  rw [if_neg (by simpa [Operand.base] using hx)]
  exact build_plain _ _ h

/-- C41, partial: floor division, remainder and absolute value. Quotient and remainder belong together: the remainder
is the dividend minus the floored quotient times the divisor, and lies between zero and the divisor. -/
theorem C41_floordiv_mod_partial (a : Unit) (x : ℚ) (h : PlainUnit a.unit) (hx : 0 < x) :
    ∃ d m, floordiv a (.num x) = .ok d ∧ mod a (.num x) = .ok m ∧ a.base = d.base * x + m.base ∧
      (∃ z : Int, d.base = z) ∧ 0 ≤ m.base ∧ m.base < x ∧ d.unit = a.unit ∧ m.unit = a.unit := by
  obtain ⟨d, h1, h2, h3⟩ := build_plain (⌊a.base / x⌋ : ℚ) a.unit h
  obtain ⟨m, g1, g2, g3⟩ := build_plain (a.base - ⌊a.base / x⌋ * x) a.unit h
  have hne : x ≠ 0 := ne_of_gt hx
  have hl := Int.floor_le (a.base / x)
  have hg := Int.lt_floor_add_one (a.base / x)
  rw [le_div_iff₀ hx] at hl
  rw [div_lt_iff₀ hx] at hg
  refine ⟨d, m, ?_, ?_, by rw [h2, g2]; ring, ⟨_, h2⟩, by rw [g2]; linarith, by rw [g2]; linarith, h3, g3⟩
  · unfold floordiv
    rw [if_neg (by simpa [Operand.base] using hne)]
    exact h1
  · have hm : mod a (.num x) = if (Operand.num x).base = 0 then .error "ZeroDivisionError"
        else build (a.base - ⌊a.base / x⌋ * x) a.unit := rfl
    rw [hm, if_neg (by simpa [Operand.base] using hne)]
    exact g1

/-- C41, partial: absolute value. -/
theorem C41_abs_partial (a : Unit) (h : PlainUnit a.unit) :
    ∃ r, abs a = .ok r ∧ r.base = |a.base| ∧ r.unit = a.unit := build_plain _ _ h

/-- C41 does not hold for units that begin with a prefix character: `1 Pages + 1 Pages` is `2e16 ages`. -/
theorem C41_negation_resplit : ∃ a r : Unit, a.unit = "Pages".toList ∧ add a (.unit a) = .ok r ∧
    r.base = 10 ^ 16 * (a.base + a.base) ∧ r.unit = "ages".toList := by
  obtain ⟨r, h1, h2, h3⟩ := C41_reduced ⟨1 + 1, ['P'], "ages".toList⟩
  refine ⟨⟨1, [], "Pages".toList⟩, r, rfl, ?_, ?_, h3⟩
  · have hb : ((⟨1, [], "Pages".toList⟩ : Unit).base + (Operand.unit ⟨1, [], "Pages".toList⟩).base) = 1 + 1 := by
      simp [Operand.base, Unit.base, Unit.factor, factor?, prefixes, List.lookup]
    have hs : splitUnit "Pages".toList = some (['P'], "ages".toList) := by decide
    simp only [add, commonUnit, if_true, build, hb, mk2, hs]
    exact h1
  · rw [h2]
    simp [Unit.base, Unit.factor, factor?, prefixes, List.lookup]
    norm_num

/-- C41 does not hold for quantities without unit: their sum, and every other operation, is rejected. -/
theorem C41_negation_no_unit (v w : ℚ) :
    add ⟨v, [], []⟩ (.unit ⟨w, [], []⟩) = .error "AssertionError" ∧
    mul ⟨v, [], []⟩ (.num w) = .error "AssertionError" := by
  simp [add, mul, commonUnit, build, mk2, splitUnit]

theorem matchUnit_some (s t : List Char) (h : matchUnit s = some t) : t ≠ [] ∧ '\n' ∉ t ∧ t.length ≤ s.length := by
  unfold matchUnit at h
  simp only at h
  split_ifs at h with h1 h2
  · simp only [Option.some.injEq] at h
    subst h
    refine ⟨h1, fun hm => ?_, (List.takeWhile_prefix _).length_le⟩
    have := List.all_eq_true.1 (List.all_takeWhile (p := (· != '\n')) (l := s)) _ hm
    simp at this

/-- C41, an exact description: the sum of quantities of one unit has the right value and unit just if that unit is plain. -/
theorem C41_add_right_iff (a : Unit) (b : Operand) (hb : ∀ q, b = .unit q → q.unit = a.unit) :
    (∃ r, add a b = .ok r ∧ r.base = a.base + b.base ∧ r.unit = a.unit) ↔ PlainUnit a.unit := by
  refine ⟨?_, fun h => (C41_add_sub_partial a b h hb).1⟩
  rintro ⟨r, h1, _, h3⟩
  have hc : commonUnit a b = some a.unit := by
    cases b with
    | num x => rfl
    | unit q => simp [commonUnit, hb q rfl]
  unfold add build mk2 at h1
  rw [hc] at h1
  simp only at h1
  cases hs : splitUnit a.unit with
  | none => rw [hs] at h1; simp at h1
  | some pt =>
    obtain ⟨p, t⟩ := pt
    rw [hs] at h1
    have ht : t = a.unit := by
      simp only [mk3] at h1
      cases hf : factor? p with
      | none => rw [hf] at h1; simp at h1
      | some f =>
        rw [hf] at h1
        simp only at h1
        obtain ⟨r', g1, _, g3⟩ := C41_reduced ⟨a.base + b.base, p, t⟩
        rw [g1] at h1
        simp only [Except.ok.injEq] at h1
        rw [← h3, ← h1, g3]
    clear h1 hb hc
    generalize a.unit = u at *
    subst ht
    unfold splitUnit at hs
    cases t with
    | nil => simp at hs
    | cons c rest =>
      simp only at hs
      split at hs
      · cases hm : matchUnit rest with
        | some t =>
          rw [hm] at hs
          simp only [Option.some.injEq, Prod.mk.injEq] at hs
          have := (matchUnit_some _ _ hm).2.2
          rw [hs.2] at this
          simp at this
        | none =>
          rw [hm] at hs
          simp only [Option.map_eq_some_iff, Prod.mk.injEq] at hs
          obtain ⟨t, ht, _, rfl⟩ := hs
          obtain ⟨g1, g2, _⟩ := matchUnit_some _ _ ht
          refine ⟨g1, g2, fun c' rest' he hr => ?_⟩
          obtain ⟨rfl, rfl⟩ := List.cons.inj he
          rw [matchUnit_plain rest hr (fun h => g2 (by simp [h]))] at hm
          simp at hm
      · rename_i hp
        simp only [Option.map_eq_some_iff, Prod.mk.injEq] at hs
        obtain ⟨t, ht, _, rfl⟩ := hs
        obtain ⟨g1, g2, _⟩ := matchUnit_some _ _ ht
        refine ⟨g1, g2, fun c' rest' he _ => ?_⟩
        obtain ⟨rfl, rfl⟩ := List.cons.inj he
        simpa using hp

/-- C41: a line break after a plain unit is dropped, value and unit are right otherwise. -/
theorem C41_line_break (v w : ℚ) (u : List Char) (h : PlainUnit u) :
    ∃ r, add ⟨v, [], u ++ ['\n']⟩ (.unit ⟨w, [], u ++ ['\n']⟩) = .ok r ∧ r.base = v + w ∧ r.unit = u := by
  obtain ⟨h1, h2, h3⟩ := h
  have hm : ∀ u : List Char, u ≠ [] → '\n' ∉ u → matchUnit (u ++ ['\n']) = some u := by
    intro u h1 h2
    have hall : ∀ c ∈ u, (c != '\n') = true := fun c hc => by
      simp only [bne_iff_ne]; rintro rfl; exact h2 hc
    have ht : (u ++ ['\n']).takeWhile (· != '\n') = u := by
      rw [List.takeWhile_append_of_pos hall]; simp
    have hd : (u ++ ['\n']).dropWhile (· != '\n') = ['\n'] := by
      rw [List.dropWhile_append_of_pos hall]; simp
    simp [matchUnit, ht, hd, h1]
  have hs : splitUnit (u ++ ['\n']) = some ([], u) := by
    cases u with
    | nil => exact absurd rfl h1
    | cons c rest =>
      rw [List.cons_append]
      unfold splitUnit
      simp only
      have hcons := hm (c :: rest) h1 h2
      rw [List.cons_append] at hcons
      split
      · rename_i hc
        by_cases hr : rest = []
        · subst hr
          have : matchUnit ([] ++ ['\n']) = none := by simp [matchUnit]
          rw [this]
          simp only
          rw [hcons]; rfl
        · rw [h3 c rest rfl hr] at hc
          simp at hc
      · rw [hcons]; rfl
  obtain ⟨r, g1, g2, g3⟩ := C41_reduced ⟨v + w, [], u⟩
  have hb : ∀ x : ℚ, ∀ l : List Char, (⟨x, [], l⟩ : Unit).base = x := fun x l => by
    simp [Unit.base, Unit.factor, factor?, prefixes, List.lookup]
  refine ⟨r, ?_, by rw [g2, hb], g3⟩
  simp only [add, commonUnit, if_true, build, mk2, hs, Operand.base, hb]
  simp only [mk3, factor?, prefixes, List.lookup]
  exact g1

/-- `1.5 GB/s + 250 MB/s`: the hypotheses hold. -/
example : PlainUnit "B/s".toList ∧ PlainUnit "cy/CL".toList ∧ ¬ PlainUnit "Pages".toList := by
  refine ⟨⟨by decide, by decide, ?_⟩, ⟨by decide, by decide, ?_⟩, ?_⟩
  · intro c rest h _
    have : c = 'B' := (List.cons.inj h).1.symm
    subst this; decide
  · intro c rest h _
    have : c = 'c' := (List.cons.inj h).1.symm
    subst this; decide
  · rintro ⟨_, _, h⟩
    have := h 'P' "ages".toList rfl (by decide)
    revert this; decide

end Verif.Units
