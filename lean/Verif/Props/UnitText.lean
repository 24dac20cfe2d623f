import Verif.Lemmas.UnitText
import Verif.Props.Units
import Mathlib.Tactic.NormNum
import Mathlib.Tactic.Linarith
import Mathlib.Tactic.Ring
import Mathlib.Tactic.FieldSimp

/-!
C81: a quantity written as text (as in machine files) is read again with its unit and nearly its value.
-/

namespace Verif.Units

open Verif.Text

theorem round2_eq (x : ℚ) : round2 x = hundredths x / 100 := rfl

theorem hundredths_nonneg (x : ℚ) (h : 0 ≤ x) : 0 ≤ hundredths x := by
  have hf : 0 ≤ ⌊x * 100⌋ := Int.floor_nonneg.2 (by linarith)
  unfold hundredths
  simp only
  split_ifs <;> omega

/-- Rounding to two decimals changes a value by at most 1/200. -/
theorem round2_error (x : ℚ) : |round2 x - x| ≤ 1 / 200 := by
  have h1 := Int.floor_le (x * 100)
  have h2 := Int.lt_floor_add_one (x * 100)
  rw [round2_eq]
  unfold hundredths
  simp only
  rw [abs_le]
  split_ifs <;> push_cast <;> constructor <;> linarith

theorem readNumber_showFixed (x : ℚ) (hx : 0 ≤ x) (rest : List Char) :
    readNumber (showFixed x ++ ' ' :: rest) = some (round2 x, rest) := by
  have hn := hundredths_nonneg x hx
  unfold showFixed
  simp only [not_lt.2 hx, if_false, List.nil_append]
  generalize hm : (hundredths x).natAbs = n
  have hd1 : n / 10 % 10 < 10 := Nat.mod_lt _ (by norm_num)
  have hd2 : n % 10 < 10 := Nat.mod_lt _ (by norm_num)
  have hA := takeWhile_digits (showNat (n / 100))
    (['.', digitChar (n / 10 % 10), digitChar (n % 10)] ++ ' ' :: rest) (showNat_digits _)
    (by intro c hc; simp at hc; subst hc; decide)
  have hB := takeWhile_digits [digitChar (n / 10 % 10), digitChar (n % 10)] (' ' :: rest)
    (by
      intro c hc
      simp only [List.mem_cons, List.not_mem_nil, or_false] at hc
      rcases hc with rfl | rfl
      · exact digitChar_isDigit _ hd1
      · exact digitChar_isDigit _ hd2)
    (by intro c hc; simp at hc; subst hc; decide)
  rw [List.append_assoc]
  unfold readNumber
  simp only
  rw [hA.1, hA.2, if_neg (showNat_ne_nil _)]
  simp only [List.cons_append, List.nil_append] at hB ⊢
  rw [hB.1, hB.2]
  have hv : natOf [digitChar (n / 10 % 10), digitChar (n % 10)] = 10 * (n / 10 % 10) + n % 10 := by
    have := natOf_map [n / 10 % 10, n % 10] (by
      intro d hd
      simp only [List.mem_cons, List.not_mem_nil, or_false] at hd
      rcases hd with rfl | rfl <;> assumption)
    simpa using this
  simp only [hv, natOf_showNat, List.length_cons, List.length_nil]
  rw [if_neg (by simp)]
  have hz : (hundredths x : ℚ) = n := by
    rw [← hm, Nat.cast_natAbs, abs_of_nonneg hn]
  rw [round2_eq, hz]
  have hsplit : n = 100 * (n / 100) + (10 * (n / 10 % 10) + n % 10) := by omega
  congr 2
  conv_rhs => rw [hsplit]
  push_cast
  ring

theorem dropWhile_self (p : Char → Bool) (s : List Char) (h : ∀ c, s.head? = some c → p c = false) :
    s.dropWhile p = s := by
  cases s with
  | nil => rfl
  | cons c cs => simp [h c rfl]

theorem strip_self (s : List Char) (h1 : ∀ c, s.head? = some c → isSpace c = false)
    (h2 : ∀ c, s.getLast? = some c → isSpace c = false) : strip s = s := by
  unfold strip
  rw [dropWhile_self _ _ h1, dropWhile_self _ _ (by simpa using h2), List.reverse_reverse]

/-- Units for which the text form is unambiguous: not empty, no newline, no prefix letter at the beginning, no white
space at the end. -/
def TextUnit (u : List Char) : Prop :=
  '\n' ∉ u ∧ (∃ c, u.head? = some c ∧ c ∉ ['k', 'M', 'G', 'T', 'P']) ∧ ∃ c, u.getLast? = some c ∧ isSpace c = false

theorem takeWhile_nl (u : List Char) (h : '\n' ∉ u) :
    u.takeWhile (· != '\n') = u ∧ u.dropWhile (· != '\n') = [] := by
  induction u with
  | nil => exact ⟨rfl, rfl⟩
  | cons c u ih =>
    have hc : c ≠ '\n' := fun h' => h (by simp [h'])
    have := ih (fun h' => h (by simp [h']))
    simp [hc, this.1, this.2]

theorem readUnit_append (p u : List Char) (hp : p = [] ∨ ∃ c, p = [c] ∧ isPrefixChar c = true) (hu : TextUnit u) :
    readUnit (p ++ u) = some (p, u) := by
  obtain ⟨h1, ⟨c, hc, hcp⟩, _⟩ := hu
  have ht := takeWhile_nl u h1
  rcases hp with rfl | ⟨d, rfl, hd⟩
  · cases u with
    | nil => simp at hc
    | cons c' u =>
      simp only [List.head?_cons, Option.some.injEq] at hc
      subst hc
      have : isPrefixChar c' = false := by
        simp only [List.mem_cons, List.not_mem_nil, or_false, not_or] at hcp
        simp [isPrefixChar, hcp]
      simp only [List.nil_append, readUnit, this, Bool.false_eq_true, if_false, ht.1, ht.2, true_or, if_true,
        Option.map_some]
  · simp only [List.singleton_append, readUnit, hd, if_true, ht.1, ht.2, true_or, Option.map_some]

theorem showFixed_head (x : ℚ) (hx : 0 ≤ x) (rest : List Char) (c : Char)
    (h : (showFixed x ++ rest).head? = some c) : isSpace c = false := by
  unfold showFixed at h
  simp only [not_lt.2 hx, if_false, List.nil_append] at h
  have hne := showNat_ne_nil ((hundredths x).natAbs / 100)
  cases hs : showNat ((hundredths x).natAbs / 100) with
  | nil => exact absurd hs hne
  | cons d ds =>
    rw [hs] at h
    simp only [List.cons_append, List.head?_cons, Option.some.injEq] at h
    subst h
    apply isDigit_not_space
    apply showNat_digits ((hundredths x).natAbs / 100)
    rw [hs]; simp

/-- Reading what was written with a readable prefix. -/
theorem read_showPlain (q : Unit) (hv : 0 ≤ q.value) (hp : q.pre = [] ∨ ∃ c, q.pre = [c] ∧ isPrefixChar c = true)
    (hk : ∃ f, factor? q.pre = some f) (hu : TextUnit q.unit) :
    read (showPlain q) = .ok (.fin ⟨round2 q.value, q.pre, q.unit⟩) := by
  have hs : showPlain q = showFixed q.value ++ ' ' :: (q.pre ++ q.unit) := by
    unfold showPlain
    apply strip_self
    · intro c hc; exact showFixed_head _ hv _ _ hc
    · intro c hc
      obtain ⟨_, _, c', hc', hsp⟩ := hu
      have hne : q.unit ≠ [] := by intro h; rw [h] at hc'; simp at hc'
      rw [show showFixed q.value ++ ' ' :: (q.pre ++ q.unit) = (showFixed q.value ++ ' ' :: q.pre) ++ q.unit by simp,
        List.getLast?_append_of_ne_nil _ hne, hc'] at hc
      simp only [Option.some.injEq] at hc
      subst hc; exact hsp
  obtain ⟨f, hf⟩ := hk
  rw [hs]
  unfold read
  rw [readNumber_showFixed _ hv]
  simp only
  rw [readUnit_append _ _ hp hu]
  simp [mk3, hf, Except.map]

/-- The chosen prefix is the empty one or one that was found good. -/
theorem goodPrefix_good (base e : ℚ) :
    ∃ f, factor? (goodPrefix base e) = some f ∧ (goodPrefix base e, f) ∈ prefixes ∧
      (goodPrefix base e = [] ∨ (|round2 (base / f) * f - base| ≤ base * e ∧ 9 / 10 ≤ |round2 (base / f)|)) := by
  have h := foldl_mem prefixes (fun (g : List Char × ℚ) kv => if goodFor base e kv.2 g.2 then kv else g)
    (fun g : List Char × ℚ => g ∈ prefixes ∧
        (g.1 = [] ∨ (|round2 (base / g.2) * g.2 - base| ≤ base * e ∧ 9 / 10 ≤ |round2 (base / g.2)|))) ([], 1)
    ?_ ?_
  rotate_left
  · exact ⟨by simp [prefixes], Or.inl rfl⟩
  · intro b a hb ha
    split
    · rename_i hg
      simp only [goodFor, Bool.and_eq_true, Bool.not_eq_true', decide_eq_false_iff_not, not_lt] at hg
      exact ⟨ha, Or.inr ⟨hg.1.1, hg.1.2⟩⟩
    · exact hb
  obtain ⟨hm, hg⟩ := h
  generalize hr : prefixes.foldl (fun (g : List Char × ℚ) kv => if goodFor base e kv.2 g.2 then kv else g) ([], 1) = r
    at hm hg
  have hgp : goodPrefix base e = r.1 := by unfold goodPrefix; rw [hr]
  rw [hgp]
  refine ⟨r.2, ?_, hm, hg⟩
  simp only [prefixes, List.mem_cons, List.not_mem_nil, or_false] at hm
  rcases hm with h | h | h | h | h | h | h | h | h <;> rw [h] <;> rfl

/-- `__str__` ends after at most one change of the prefix, with the text of an equal quantity. -/
theorem str_eq (q : Unit) : ∃ r, str 2 q = some (showPlain r) ∧ r.base = q.base ∧ r.unit = q.unit ∧
    r.pre = goodPrefix q.base (1 / 100) := by
  unfold str
  simp only
  split
  · rename_i h; exact ⟨q, rfl, rfl, rfl, h⟩
  · rcases C41_with_prefix q (goodPrefix q.base (1 / 100)) with ⟨h, _⟩ | ⟨r, h1, h2, h3, h4⟩
    · obtain ⟨f, hf, _⟩ := goodPrefix_good q.base (1 / 100)
      rw [hf] at h; simp at h
    · rw [h1]
      simp only
      refine ⟨r, ?_, h2, h3, h4⟩
      unfold str
      simp only
      rw [if_pos (by rw [h2, h4])]

/-- C81 for quantities that are not negative, below 8 * 10^18 and have an unambiguous unit: the text is produced, is read
again with the same unit, and the value changes by at most one percent or 0.005. Missing: see the negations. -/
theorem C81_round_trip_partial (q : Unit) (h0 : 0 ≤ q.base) (hb : q.base < 8 * 10 ^ 18) (hu : TextUnit q.unit) :
    ∃ s r, str 2 q = some s ∧ read s = .ok (.fin r) ∧ r.unit = q.unit ∧
      |r.base - q.base| ≤ max (q.base / 100) (1 / 200) := by
  obtain ⟨p, h1, h2, h3, h4⟩ := str_eq q
  obtain ⟨f, hf, hm, hg⟩ := goodPrefix_good q.base (1 / 100)
  rw [← h4] at hf hm hg
  have hpos : 0 < f := factor_pos _ _ hf
  have hpb : p.base = p.value * f := by unfold Unit.base Unit.factor; rw [hf]; rfl
  have hval : p.value = q.base / f := by rw [← h2, hpb]; field_simp
  have hv0 : 0 ≤ p.value := by rw [hval]; positivity
  have hsmall : ∀ v : ℚ, 10 ^ 19 ≤ v → ¬ 9 / 10 ≤ |round2 (q.base / v)| := by
    intro v hv h9
    have hvp : 0 < v := lt_of_lt_of_le (by norm_num) hv
    have hx : q.base / v ≤ 8 / 10 := by
      rw [div_le_iff₀ hvp]; linarith
    have hx0 : 0 ≤ q.base / v := by positivity
    have he := abs_le.1 (round2_error (q.base / v))
    have : |round2 (q.base / v)| ≤ 81 / 100 := by
      rw [abs_le]; constructor <;> linarith [he.1, he.2]
    linarith
  have hpre : p.pre = [] ∨ ∃ c, p.pre = [c] ∧ isPrefixChar c = true := by
    rcases hg with h | ⟨_, h9⟩
    · left; exact h
    · simp only [prefixes, List.mem_cons, List.not_mem_nil, or_false, Prod.mk.injEq] at hm
      rcases hm with ⟨h, _⟩ | ⟨h, _⟩ | ⟨h, _⟩ | ⟨h, _⟩ | ⟨h, _⟩ | ⟨_, hf'⟩ | ⟨_, hf'⟩ | ⟨_, hf'⟩ | ⟨h, _⟩
      · right; exact ⟨_, h, by decide⟩
      · right; exact ⟨_, h, by decide⟩
      · right; exact ⟨_, h, by decide⟩
      · right; exact ⟨_, h, by decide⟩
      · right; exact ⟨_, h, by decide⟩
      · exact absurd h9 (hsmall f (by rw [hf']))
      · exact absurd h9 (hsmall f (by rw [hf']; norm_num))
      · exact absurd h9 (hsmall f (by rw [hf']; norm_num))
      · left; exact h
  refine ⟨_, _, h1, read_showPlain p hv0 hpre ⟨f, hf⟩ (by rw [h3]; exact hu), h3, ?_⟩
  have hrb : (⟨round2 p.value, p.pre, p.unit⟩ : Unit).base = round2 p.value * f := by
    unfold Unit.base Unit.factor; rw [hf]; rfl
  rw [hrb, hval]
  rcases hg with h | ⟨hgood, _⟩
  · have hf1 : f = 1 := by
      rw [h] at hf
      have : factor? ([] : List Char) = some 1 := rfl
      rw [this] at hf; simpa using hf.symm
    subst hf1
    rw [div_one, mul_one]
    exact le_trans (round2_error q.base) (le_max_right _ _)
  · refine le_trans hgood (le_trans ?_ (le_max_left _ _))
    linarith

/-- Non-trivial example: 2.345678 GHz. -/
example : str 2 ⟨2345678000, [], "Hz".toList⟩ = some "2.35 GHz".toList ∧
    read "2.35 GHz".toList = .ok (.fin ⟨235 / 100, ['G'], "Hz".toList⟩) ∧ TextUnit "Hz".toList := by
  refine ⟨by decide +kernel, by decide +kernel, by decide, ⟨'H', rfl, by decide⟩, ⟨'z', rfl, by decide⟩⟩

/-- C81 is false for large quantities: 1.5 EB are written with a prefix that is not read. -/
theorem C81_negation_large : str 2 ⟨15 * 10 ^ 18, [], ['B']⟩ = some "1.50 EB".toList ∧
    read "1.50 EB".toList = .ok (.fin ⟨15 / 10, [], "EB".toList⟩) := by
  refine ⟨by decide +kernel, by decide +kernel⟩

/-- C81 is false without unit: the separating space is stripped, and the text is rejected. -/
theorem C81_negation_no_unit : str 2 ⟨5, [], []⟩ = some "5.00".toList ∧ read "5.00".toList = .error "AssertionError" := by
  refine ⟨by decide +kernel, by decide +kernel⟩

/-- C81 is false for negative quantities: their text is rejected. -/
theorem C81_negation_negative : str 2 ⟨-5, [], ['B']⟩ = some "-5.00 B".toList ∧
    read "-5.00 B".toList = .error "AssertionError" := by
  refine ⟨by decide +kernel, by decide +kernel⟩

/-- C81 is false for units that begin with a prefix letter: 5 Pa are read as 5 * 10^16 a. -/
theorem C81_negation_unit : str 2 ⟨5, [], "Pa".toList⟩ = some "5.00 Pa".toList ∧
    read "5.00 Pa".toList = .ok (.fin ⟨5, ['P'], ['a']⟩) := by
  refine ⟨by decide +kernel, by decide +kernel⟩

end Verif.Units
