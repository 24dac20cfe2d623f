import Verif.Lemmas.Cli
import Mathlib.Tactic.NormNum

/-!
C33-C35 and C42-C44: command line values, combinations of constants, merging, result storage, identifiers.
-/

namespace Verif.Cli

open Numerals

/-! ## C33 -/

/-- C33: `start-stop` expands to the integers from start to stop, ascending. -/
theorem C33_all_integers (ds es : List Char) (hd : ∀ c ∈ ds, c ∈ digits) (hdn : ds ≠ [])
    (he : ∀ c ∈ es, c ∈ digits) (hen : es ≠ []) :
    ∃ l, rangeValues (ds ++ '-' :: es) = .ok l ∧ l.Pairwise (· < ·) ∧
      ∀ x : Int, x ∈ l ↔ (value ds : Int) ≤ x ∧ x ≤ value es := by
  have h1 := takeNumber_append ds ('-' :: es) hd hdn (by simp; decide)
  have h2 := takeNumber_append es [] he hen (by simp)
  rw [List.append_nil] at h2
  have hp : parseRange (ds ++ '-' :: es) = some ⟨value ds, some (value es), none, false, none⟩ := by
    simp [parseRange, h1, h2]
  refine ⟨(List.range (value es + 1 - value ds)).map fun i => ((value ds + i : Nat) : Int),
    by simp [rangeValues, hp], ?_, ?_⟩
  · rw [List.pairwise_map]
    exact List.pairwise_lt_range.imp (fun h => by omega)
  · intro x
    simp only [List.mem_map, List.mem_range]
    constructor
    · rintro ⟨i, hi, rfl⟩
      omega
    · rintro ⟨h1, h2⟩
      exact ⟨(x - value ds).toNat, by omega, by omega⟩

/-- C33: `space` gives the requested number of values, from start to stop, monotone, each within one half of
the exact position. -/
theorem C33_space (start stop num : Int) (hn : 2 ≤ num) :
    ∃ l, space start stop num = .ok l ∧ l.length = num ∧ l.head? = some start ∧ l.getLast? = some stop ∧
      (start ≤ stop → l.Pairwise (· ≤ ·)) ∧ (stop ≤ start → l.Pairwise (· ≥ ·)) ∧
      ∀ (i : Nat) x, l[i]? = some x →
        |(start : ℚ) + i * ((stop : ℚ) - start) / (num - 1) - x| ≤ 1 / 2 := by
  obtain ⟨n, rfl⟩ : ∃ n : Nat, num = n + 2 := ⟨(num - 2).toNat, by omega⟩
  have hnq : (0 : ℚ) < (n : ℚ) + 1 := by positivity
  have hl : space start stop (n + 2) = .ok ((List.range (n + 2)).map fun i : Nat =>
      roundHalfEven ((start : ℚ) + i * (((stop : ℚ) - start) / (n + 1)))) := by
    unfold space
    rw [if_neg (by omega)]
    have h1 : ((n : Int) + 2).toNat = n + 2 := by omega
    have h2 : ((((n : Int) + 2 - 1 : Int)) : ℚ) = (n : ℚ) + 1 := by push_cast; ring
    simp only [h1, h2]
    push_cast
    rfl
  refine ⟨_, hl, by simp, ?_, ?_, ?_, ?_, ?_⟩
  · rw [List.range_succ_eq_map]
    simp [round_int]
  · rw [show n + 2 = (n + 1) + 1 from rfl, List.range_succ]
    simp only [List.map_append, List.map_cons, List.map_nil, List.getLast?_append, List.getLast?_singleton,
      Option.some_or, Option.some.injEq]
    have : (start : ℚ) + ((n + 1 : Nat) : ℚ) * (((stop : ℚ) - start) / (n + 1)) = (stop : Int) := by
      push_cast
      field_simp
      ring
    rw [this, round_int]
  · intro h
    have hq : (start : ℚ) ≤ stop := by exact_mod_cast h
    rw [List.pairwise_map]
    refine List.pairwise_lt_range.imp (fun {a b} hab => round_mono _ _ ?_)
    have hab' : (a : ℚ) ≤ b := by exact_mod_cast hab.le
    have : (0 : ℚ) ≤ ((stop : ℚ) - start) / (n + 1) := div_nonneg (by linarith) hnq.le
    have := mul_le_mul_of_nonneg_right hab' this
    linarith
  · intro h
    have hq : (stop : ℚ) ≤ start := by exact_mod_cast h
    rw [List.pairwise_map]
    refine List.pairwise_lt_range.imp (fun {a b} hab => round_mono _ _ ?_)
    have hab' : (a : ℚ) ≤ b := by exact_mod_cast hab.le
    have h0 : ((stop : ℚ) - start) / (n + 1) ≤ 0 := div_nonpos_of_nonpos_of_nonneg (by linarith) hnq.le
    have := mul_le_mul_of_nonpos_right hab' h0
    linarith
  · intro i x hx
    rw [List.getElem?_map, Option.map_eq_some_iff] at hx
    obtain ⟨j, hj, rfl⟩ := hx
    have hij : j = i := by
      rw [List.getElem?_eq_some_iff] at hj
      obtain ⟨hlt, hj⟩ := hj
      simpa using hj.symm
    subst hij
    have : (start : ℚ) + j * ((stop : ℚ) - start) / ((((n : Int) + 2 : Int) : ℚ) - 1) =
        (start : ℚ) + j * (((stop : ℚ) - start) / (n + 1)) := by
      push_cast
      rw [mul_div_assoc, show (n : ℚ) + 2 - 1 = n + 1 by ring]
    rw [this]
    exact round_near _

/-- C33: `start-stop:num` is `space`. -/
theorem C33_spaced (ds es ns : List Char) (hd : ∀ c ∈ ds, c ∈ digits) (hdn : ds ≠ [])
    (he : ∀ c ∈ es, c ∈ digits) (hen : es ≠ []) (hn : ∀ c ∈ ns, c ∈ digits) (hnn : ns ≠ []) :
    rangeValues (ds ++ '-' :: (es ++ ':' :: ns)) = space (value ds) (value es) (value ns) := by
  have h1 := takeNumber_append ds ('-' :: (es ++ ':' :: ns)) hd hdn (by simp; decide)
  have h2 := takeNumber_append es (':' :: ns) he hen (by simp; decide)
  have h3 := takeNumber_append ns [] hn hnn (by simp)
  rw [List.append_nil] at h3
  have hp : parseRange (ds ++ '-' :: (es ++ ':' :: ns)) =
      some ⟨value ds, some (value es), some (value ns), false, none⟩ := by
    simp [parseRange, h1, h2, h3, parseLog, dropColon]
  simp [rangeValues, hp]

/-- C33: a single number gives itself. -/
theorem C33_single (ds : List Char) (hd : ∀ c ∈ ds, c ∈ digits) (hdn : ds ≠ []) :
    rangeValues ds = .ok [(value ds : Int)] := by
  have h1 := takeNumber_append ds [] hd hdn (by simp)
  rw [List.append_nil] at h1
  simp [rangeValues, parseRange, h1]

/-- C33: fewer than two values are rejected. -/
theorem C33_too_few_rejected (start stop num : Int) (h : num < 2) :
    space start stop num = .error "AssertionError" := by
  simp [space, h]

/-- C33: strings that do not start with a digit are rejected. -/
theorem C33_not_a_number_rejected (s : List Char) (h : ∀ c, s.head? = some c → c ∉ digits) :
    rangeValues s = .error "ArgumentError" := by
  have : takeNumber s = none := by
    cases s with
    | nil => rfl
    | cons c cs =>
      have hc : isDigit c = false := by
        have := h c rfl
        rw [← isDigit_iff] at this
        simpa using this
      simp [takeNumber, hc]
  simp [rangeValues, parseRange, this]

example : value "1024".toList = 1024 ∧ (∀ c ∈ "1024".toList, c ∈ digits) := by decide
example : space 1 10 4 = .ok [1, 4, 7, 10] := by
  have : (List.range (Int.toNat 4)) = [0, 1, 2, 3] := by decide
  have h : ∀ z : Int, roundHalfEven (z : ℚ) = z := round_int
  have h1 := h 1; have h4 := h 4; have h7 := h 7; have h10 := h 10
  push_cast at h1 h4 h7 h10
  norm_num [space, this, h1, h4, h7, h10]

/-! ## C34 -/

/-- A value is given for a constant, by its own option or by the default option. -/
def Given (defs : List Define) (n : String) (v : Int) : Prop := ∃ d ∈ defs, (d.1 = n ∨ d.1 = ".") ∧ v ∈ d.2

/-- The claim of C34: in some order `ks` of the required constants, every combination of given values is in the
list exactly once and nothing else is. -/
def EachOnce (required : List String) (defs : List Define) (l : List (List (String × Int))) : Prop :=
  ∃ ks : List String, ks.Perm required ∧
    (∀ c ∈ l, ∃ f : String → Int, c = ks.map (fun n => (n, f n)) ∧ ∀ n ∈ required, Given defs n (f n)) ∧
    (∀ f : String → Int, (∀ n ∈ required, Given defs n (f n)) → l.count (ks.map fun n => (n, f n)) = 1)

/-- C34 is false: a value given twice for a constant is analysed twice (here: overlapping ranges). -/
theorem C34_negation : ∃ l, defineProduct ["N"] [("N", [1, 2]), ("N", [2, 3])] = .ok l ∧
    ¬ EachOnce ["N"] [("N", [1, 2]), ("N", [2, 3])] l := by
  refine ⟨[[("N", 1)], [("N", 2)], [("N", 2)], [("N", 3)]], by decide +kernel, ?_⟩
  rintro ⟨ks, hks, _, h⟩
  have := List.perm_singleton.1 hks
  subst this
  have := h (fun _ => 2) (by
    intro n hn
    simp only [List.mem_singleton] at hn
    exact ⟨("N", [1, 2]), by simp, Or.inl hn.symm, by simp⟩)
  simp at this

/-- C34 is false: of several default options only the last one (after sorting) counts. -/
theorem C34_negation_default : ∃ l, defineProduct ["N"] [(".", [1]), (".", [2])] = .ok l ∧
    ¬ EachOnce ["N"] [(".", [1]), (".", [2])] l := by
  refine ⟨[[("N", 2)]], by decide +kernel, ?_⟩
  rintro ⟨ks, hks, _, h⟩
  have := List.perm_singleton.1 hks
  subst this
  have := h (fun _ => 1) (by
    intro n hn
    exact ⟨(".", [1]), by simp, Or.inr rfl, by simp⟩)
  simp at this

/-- Values the code collects for a constant. -/
theorem defineDict_spec (required : List String) (hreq : required.Nodup) (hdot : "." ∉ required)
    (defs : List Define) (hone : (defs.filter (·.1 = ".")).length ≤ 1) :
    ((defineDict required defs).map (·.1)).Nodup ∧
    (∀ n, n ∈ (defineDict required defs).map (·.1) ↔
      n ∈ required ∧ ∃ d ∈ defs, d.1 = n ∨ d.1 = ".") ∧
    ∀ e ∈ defineDict required defs, e.1 ∈ required ∧
      e.2.Perm ((defs.filter (fun d => d.1 = e.1 ∨ d.1 = ".")).flatMap (·.2)) := by
  have hperm : (defs.insertionSort (fun a b => defineLe a b)).Perm defs := List.perm_insertionSort _ _
  have hdotfilter : ∀ n, n ≠ "." → ∀ ds : List Define,
      ((ds.filter (·.1 = ".")).flatMap (·.2) ++ valuesOf ds n).Perm
      ((ds.filter (fun d => d.1 = n ∨ d.1 = ".")).flatMap (·.2)) := by
    intro n hn ds
    induction ds with
    | nil => simp [valuesOf]
    | cons d ds ih =>
      by_cases h1 : d.1 = "."
      · have h2 : d.1 ≠ n := fun h => hn (h ▸ h1)
        have h3 : valuesOf (d :: ds) n = valuesOf ds n := by simp [valuesOf, h2]
        rw [h3]
        simp only [List.filter_cons, h1, decide_true, if_true, or_true, List.flatMap_cons,
          List.append_assoc]
        exact ih.append_left _
      · by_cases h2 : d.1 = n
        · have h3 : valuesOf (d :: ds) n = d.2 ++ valuesOf ds n := by simp [valuesOf, h2]
          rw [h3]
          simp only [List.filter_cons, h2, decide_true, if_true, true_or, List.flatMap_cons]
          have hne : ¬ (n = ".") := hn
          simp only [hne, decide_false, Bool.false_eq_true, if_false]
          rw [← List.append_assoc]
          refine (List.Perm.append_right _ List.perm_append_comm).trans ?_
          rw [List.append_assoc]
          exact ih.append_left _
        · have h3 : valuesOf (d :: ds) n = valuesOf ds n := by simp [valuesOf, h2]
          rw [h3]
          simp only [List.filter_cons, h1, h2, decide_false, Bool.false_eq_true, if_false, or_self]
          exact ih
  unfold defineDict
  simp only
  generalize hs : defs.insertionSort (fun a b => defineLe a b) = sorted at *
  have hone' : (sorted.filter (·.1 = ".")).length ≤ 1 := by
    rw [(hperm.filter _).length_eq]; exact hone
  cases hdef : defaultValues sorted with
  | none =>
    have hnodot : ∀ d ∈ sorted, d.1 ≠ "." := by
      unfold defaultValues at hdef
      rw [Option.map_eq_none_iff, List.find?_eq_none] at hdef
      intro d hd
      simpa using hdef d (List.mem_reverse.2 hd)
    simp only
    obtain ⟨h1, h2, h3⟩ := foldDefine required [] (by simp) (by simp) sorted
    refine ⟨h1, ?_, ?_⟩
    · intro n
      rw [h2]
      simp only [List.map_nil, List.not_mem_nil, false_or]
      constructor
      · rintro ⟨hn, d, hd, he⟩
        exact ⟨hn, d, hperm.mem_iff.1 hd, Or.inl he⟩
      · rintro ⟨hn, d, hd, he | he⟩
        · exact ⟨hn, d, hperm.mem_iff.2 hd, he⟩
        · exact absurd he (hnodot d (hperm.mem_iff.2 hd))
    · intro e he
      obtain ⟨hr, hc⟩ := h3 e he
      refine ⟨hr, ?_⟩
      rcases hc with ⟨vs, hvs, _⟩ | ⟨_, heq⟩
      · simp at hvs
      · rw [heq]
        have hne : e.1 ≠ "." := fun h => hdot (h ▸ hr)
        have hempty : sorted.filter (·.1 = ".") = [] := by
          rw [List.filter_eq_nil_iff]
          intro d hd
          simpa using hnodot d hd
        have := hdotfilter e.1 hne sorted
        rw [hempty] at this
        simp only [List.flatMap_nil, List.nil_append] at this
        exact this.trans ((hperm.filter _).flatMap_right _)
  | some vs =>
    simp only
    have hvs : (sorted.filter (·.1 = ".")).flatMap (·.2) = vs ∧ ∃ d ∈ sorted, d.1 = "." := by
      unfold defaultValues at hdef
      rw [Option.map_eq_some_iff] at hdef
      obtain ⟨d, hd, rfl⟩ := hdef
      have hmem : d ∈ sorted := List.mem_reverse.1 (List.mem_of_find?_eq_some hd)
      have hdd : d.1 = "." := by simpa using List.find?_some hd
      have hf : d ∈ sorted.filter (·.1 = ".") := List.mem_filter.2 ⟨hmem, by simpa using hdd⟩
      refine ⟨?_, d, hmem, hdd⟩
      generalize sorted.filter (·.1 = ".") = fl at hf hone'
      match fl, hf, hone' with
      | [x], hf, _ =>
        rw [List.mem_singleton] at hf
        simp [hf]
      | x :: y :: r, _, hone' => simp at hone'
    obtain ⟨h1, h2, h3⟩ := foldDefine required (required.map fun n => (n, vs))
      (by rw [List.map_map]; simpa [Function.comp_def] using hreq) (by simp) sorted
    refine ⟨h1, ?_, ?_⟩
    · intro n
      rw [h2]
      simp only [List.map_map, Function.comp_def, List.map_id']
      obtain ⟨_, d, hd, hdd⟩ := hvs
      constructor
      · rintro (h | ⟨h, _⟩) <;> exact ⟨h, d, hperm.mem_iff.1 hd, Or.inr hdd⟩
      · rintro ⟨h, _⟩
        exact Or.inl h
    · intro e he
      obtain ⟨hr, hc⟩ := h3 e he
      refine ⟨hr, ?_⟩
      have hne : e.1 ≠ "." := fun h => hdot (h ▸ hr)
      rcases hc with ⟨ws, hws, heq⟩ | ⟨hn, _⟩
      · simp only [List.mem_map, Prod.mk.injEq] at hws
        obtain ⟨_, _, _, rfl⟩ := hws
        rw [heq]
        have := hdotfilter e.1 hne sorted
        rw [hvs.1] at this
        exact this.trans ((hperm.filter _).flatMap_right _)
      · exact absurd (by rw [List.map_map]; simpa [Function.comp_def] using hr) hn

theorem given_iff (defs : List Define) (n : String) (v : Int) :
    Given defs n v ↔ v ∈ (defs.filter (fun d => d.1 = n ∨ d.1 = ".")).flatMap (·.2) := by
  unfold Given
  simp only [List.mem_flatMap, List.mem_filter, decide_eq_true_eq, and_assoc]

theorem product_shape (dict : DefineDict) (hnd : (dict.map (·.1)).Nodup) (c : List (String × Int))
    (hc : c ∈ product dict) :
    ∃ f : String → Int, c = (dict.map (·.1)).map (fun n => (n, f n)) ∧ ∀ e ∈ dict, f e.1 ∈ e.2 := by
  rw [mem_product] at hc
  induction hc with
  | nil => exact ⟨fun _ => 0, by simp, by simp⟩
  | cons hx _ ih =>
    rename_i x e c dict _
    rw [List.map_cons, List.nodup_cons] at hnd
    obtain ⟨f, h1, h2⟩ := ih hnd.2
    refine ⟨fun n => if n = e.1 then x.2 else f n, ?_, ?_⟩
    · rw [List.map_cons, List.map_cons, h1]
      congr 1
      · simp [← hx.1]
      · apply List.map_congr_left
        intro n hn
        simp only
        rw [if_neg]
        rintro rfl
        exact hnd.1 hn
    · intro e' he'
      rcases List.mem_cons.1 he' with rfl | he'
      · simpa using hx.2
      · simp only
        rw [if_neg]
        · exact h2 e' he'
        · rintro h
          exact hnd.1 (h ▸ List.mem_map_of_mem he')

/-- C34, all combinations and nothing else: for at most one default option, each combination occurs and each
listed definition is a combination; combinations occur as often as their values were given. Missing for the full
claim: multiplicity one when values repeat (`C34_negation`), several default options
(`C34_negation_default`). -/
theorem C34_all_combinations_partial (required : List String) (hreq : required.Nodup) (hne : required ≠ [])
    (hdot : "." ∉ required) (defs : List Define) (hone : (defs.filter (·.1 = ".")).length ≤ 1)
    (l : List (List (String × Int))) (h : defineProduct required defs = .ok l) :
    ∃ ks : List String, ks.Perm required ∧
      (∀ c ∈ l, ∃ f : String → Int, c = ks.map (fun n => (n, f n)) ∧ ∀ n ∈ required, Given defs n (f n)) ∧
      (∀ f : String → Int, l.count (ks.map fun n => (n, f n)) =
        (ks.map fun n => ((defs.filter (fun d => d.1 = n ∨ d.1 = ".")).flatMap (·.2)).count (f n)).prod) := by
  obtain ⟨h1, h2, h3⟩ := defineDict_spec required hreq hdot defs hone
  unfold defineProduct at h
  rw [if_neg hne] at h
  simp only at h
  split at h
  · simp at h
  · rename_i hall
    simp only [Except.ok.injEq] at h
    subst h
    generalize defineDict required defs = dict at *
    have hkeys : (dict.map (·.1)).Perm required := by
      apply (List.perm_ext_iff_of_nodup h1 hreq).2
      intro n
      constructor
      · exact fun hn => ((h2 n).1 hn).1
      · intro hn
        by_contra hc
        apply hall
        simp only [List.any_eq_true, Bool.not_eq_true', List.any_eq_false, beq_iff_eq]
        refine ⟨n, hn, fun e he hen => hc (hen ▸ List.mem_map_of_mem he)⟩
    refine ⟨dict.map (·.1), hkeys, ?_, ?_⟩
    · intro c hc
      obtain ⟨f, hf1, hf2⟩ := product_shape dict h1 c hc
      refine ⟨f, hf1, ?_⟩
      intro n hn
      obtain ⟨e, he, rfl⟩ := List.mem_map.1 (hkeys.mem_iff.2 hn)
      rw [given_iff]
      exact (h3 e he).2.mem_iff.1 (hf2 e he)
    · intro f
      have := count_product dict f
      rw [List.map_map]
      simp only [Function.comp_def]
      rw [this, List.map_map]
      congr 1
      apply List.map_congr_left
      intro e he
      simp only [Function.comp]
      exact (h3 e he).2.count_eq _

/-- C34 holds if no value is given twice for a constant (counting the default values for each constant) and there
is at most one default option. -/
theorem C34_each_once_partial (required : List String) (hreq : required.Nodup) (hne : required ≠ [])
    (hdot : "." ∉ required) (defs : List Define) (hone : (defs.filter (·.1 = ".")).length ≤ 1)
    (hvals : ∀ n ∈ required, ((defs.filter (fun d => d.1 = n ∨ d.1 = ".")).flatMap (·.2)).Nodup)
    (l : List (List (String × Int))) (h : defineProduct required defs = .ok l) :
    EachOnce required defs l := by
  obtain ⟨ks, h1, h2, h3⟩ := C34_all_combinations_partial required hreq hne hdot defs hone l h
  refine ⟨ks, h1, h2, fun f hf => ?_⟩
  rw [h3]
  apply List.prod_eq_one
  intro x hx
  obtain ⟨n, hn, rfl⟩ := List.mem_map.1 hx
  have hn' := h1.mem_iff.1 hn
  exact List.count_eq_one_of_mem (hvals n hn') ((given_iff defs n (f n)).1 (hf n hn'))

theorem dvd_prod (l : List Nat) (x : Nat) (h : x ∈ l) : x ∣ l.prod := by
  induction l with
  | nil => cases h
  | cons a l ih =>
    rw [List.prod_cons]
    rcases List.mem_cons.1 h with rfl | h
    · exact Nat.dvd_mul_right _ _
    · exact Nat.dvd_trans (ih h) (Nat.dvd_mul_left _ _)

/-- C34: the exact condition for at most one default option. If every constant has a value, each combination is there once if and only
if no value is given twice for a constant. -/
theorem C34_each_once_iff (required : List String) (hreq : required.Nodup) (hne : required ≠ [])
    (hdot : "." ∉ required) (defs : List Define) (hone : (defs.filter (·.1 = ".")).length ≤ 1)
    (hval : ∀ n ∈ required, ∃ v, Given defs n v)
    (l : List (List (String × Int))) (h : defineProduct required defs = .ok l) :
    EachOnce required defs l ↔ ∀ n ∈ required, ((defs.filter (fun d => d.1 = n ∨ d.1 = ".")).flatMap (·.2)).Nodup := by
  refine ⟨?_, fun hvals => C34_each_once_partial required hreq hne hdot defs hone hvals l h⟩
  rintro ⟨ks', -, -, h4⟩
  obtain ⟨ks, h1, h2, h3⟩ := C34_all_combinations_partial required hreq hne hdot defs hone l h
  choose! f0 hf0 using hval
  have hks : ks' = ks := by
    have hm : (ks'.map fun n => (n, f0 n)) ∈ l := List.count_pos_iff.1 (by rw [h4 f0 hf0]; exact Nat.one_pos)
    obtain ⟨g, hg, -⟩ := h2 _ hm
    have := congrArg (List.map Prod.fst) hg
    simpa [List.map_map, Function.comp_def] using this
  subst hks
  intro n hn
  rw [List.nodup_iff_count_le_one]
  intro v
  by_cases hv : v ∈ (defs.filter (fun d => d.1 = n ∨ d.1 = ".")).flatMap (·.2)
  · have hf : ∀ m ∈ required, Given defs m (Function.update f0 n v m) := by
      intro m hm
      by_cases hmn : m = n
      · subst hmn
        rw [Function.update_self]
        exact (given_iff defs m v).2 hv
      · rw [Function.update_of_ne hmn]
        exact hf0 m hm
    have e := h4 _ hf
    rw [h3] at e
    have hd : ((defs.filter (fun d => d.1 = n ∨ d.1 = ".")).flatMap (·.2)).count (Function.update f0 n v n) ∣ 1 := by
      rw [← e]
      exact dvd_prod _ _ (List.mem_map.2 ⟨n, h1.mem_iff.2 hn, rfl⟩)
    rw [Function.update_self] at hd
    exact Nat.le_of_dvd Nat.one_pos hd
  · rw [List.count_eq_zero_of_not_mem hv]
    exact Nat.zero_le _

/-- A default that is also given for the constant. -/
example : ∃ l, defineProduct ["N"] [("N", [1, 2]), (".", [2])] = .ok l ∧ ¬ EachOnce ["N"] [("N", [1, 2]), (".", [2])] l :=
  ⟨[[("N", 2)], [("N", 1)], [("N", 2)]], by decide +kernel, fun h =>
    absurd ((C34_each_once_iff ["N"] (by decide) (by decide) (by decide) _ (by decide)
      (by intro n hn; exact ⟨2, (".", [2]), by simp, Or.inr rfl, by simp⟩) _ (by decide +kernel)).1 h "N" (by simp)) (by decide)⟩

/-- C34: exactly the calls with a constant that has neither a value nor a default are rejected. -/
theorem C34_missing_rejected (required : List String) (hreq : required.Nodup) (hdot : "." ∉ required)
    (defs : List Define) (hone : (defs.filter (·.1 = ".")).length ≤ 1) :
    defineProduct required defs = .error "ValueError" ↔
      ∃ n ∈ required, ∀ d ∈ defs, d.1 ≠ n ∧ d.1 ≠ "." := by
  obtain ⟨_, h2, _⟩ := defineDict_spec required hreq hdot defs hone
  have key : (required.any fun n => !(defineDict required defs).any (·.1 == n)) = true ↔
      ∃ n ∈ required, ∀ d ∈ defs, d.1 ≠ n ∧ d.1 ≠ "." := by
    simp only [List.any_eq_true, Bool.not_eq_true', List.any_eq_false, beq_iff_eq]
    constructor
    · rintro ⟨n, hn, hk⟩
      refine ⟨n, hn, fun d hd => ?_⟩
      by_contra hc
      have : n ∈ (defineDict required defs).map (·.1) := (h2 n).2 ⟨hn, d, hd, by tauto⟩
      obtain ⟨e, he, hen⟩ := List.mem_map.1 this
      exact hk e he hen
    · rintro ⟨n, hn, hd⟩
      refine ⟨n, hn, fun e he hen => ?_⟩
      have : n ∈ (defineDict required defs).map (·.1) := hen ▸ List.mem_map_of_mem he
      obtain ⟨_, d, hdm, hor⟩ := (h2 n).1 this
      rcases hor with h | h
      · exact (hd d hdm).1 h
      · exact (hd d hdm).2 h
  unfold defineProduct
  by_cases hne : required = []
  · subst hne
    simp
  · rw [if_neg hne]
    simp only
    rw [← key]
    split <;> simp_all

/-- C34: a kernel without required constants is analysed once. -/
theorem C34_no_constants (defs : List Define) : defineProduct [] defs = .ok [[]] := rfl

/-- Two constants, one of them by default. -/
example : defineProduct ["N", "M"] [("N", [10, 20]), (".", [5])] =
    .ok [[("N", 5), ("M", 5)], [("N", 10), ("M", 5)], [("N", 20), ("M", 5)]] := by decide +kernel

/-! ## C60 -/

/-- A nonempty string of digits. -/
def Digits (ds : List Char) : Prop := ds ≠ [] ∧ ∀ c ∈ ds, c ∈ digits

/-- The documented format `start[-stop[:num[log[base]]]]`, with the optional colons of the pattern. -/
inductive RangeFormat : List Char → RangeSpec → Prop where
  | start {ds} : Digits ds → RangeFormat ds ⟨value ds, none, none, false, none⟩
  | stop {ds es} : Digits ds → Digits es →
      RangeFormat (ds ++ '-' :: es) ⟨value ds, some (value es), none, false, none⟩
  | num {ds es ns} : Digits ds → Digits es → Digits ns →
      RangeFormat (ds ++ '-' :: (es ++ ':' :: ns)) ⟨value ds, some (value es), some (value ns), false, none⟩
  | log {ds es ns colon} : Digits ds → Digits es → Digits ns → colon = [] ∨ colon = [':'] →
      RangeFormat (ds ++ '-' :: (es ++ ':' :: (ns ++ (colon ++ ['l', 'o', 'g']))))
        ⟨value ds, some (value es), some (value ns), true, none⟩
  | base {ds es ns colon colon' bs} : Digits ds → Digits es → Digits ns → colon = [] ∨ colon = [':'] →
      colon' = [] ∨ colon' = [':'] → Digits bs →
      RangeFormat (ds ++ '-' :: (es ++ ':' :: (ns ++ (colon ++ 'l' :: 'o' :: 'g' :: (colon' ++ bs)))))
        ⟨value ds, some (value es), some (value ns), true, some (value bs)⟩

theorem takeNumber_some {s : List Char} {n : Nat} {r : List Char} (h : takeNumber s = some (n, r)) :
    ∃ ds, Digits ds ∧ s = ds ++ r ∧ n = value ds := by
  unfold takeNumber at h
  simp only at h
  split at h
  · simp at h
  · rename_i hne
    simp only [Option.some.injEq, Prod.mk.injEq] at h
    have hd : ∀ c ∈ s.takeWhile isDigit, c ∈ digits := fun c hc =>
      (isDigit_iff c).1 (List.all_eq_true.1 (List.all_takeWhile (p := isDigit) (l := s)) c hc)
    refine ⟨s.takeWhile isDigit, ⟨hne, hd⟩, ?_, by rw [← h.1, decimal_eq _ hd]⟩
    · rw [← h.2, List.takeWhile_append_dropWhile]

theorem dropColon_eq (s : List Char) : ∃ colon, (colon = [] ∨ colon = [':']) ∧ s = colon ++ dropColon s := by
  unfold dropColon
  split
  · exact ⟨[':'], Or.inr rfl, rfl⟩
  · exact ⟨[], Or.inl rfl, rfl⟩

/-- C60 does not hold: values that do not have the documented format are accepted. -/
theorem C60_negation : ¬ ∀ s r, parseRange s = some r → RangeFormat s r := by
  intro h
  have := h ['5', 'x'] ⟨5, none, none, false, none⟩ (by decide)
  generalize hs : ['5', 'x'] = s at this
  generalize hr : (⟨5, none, none, false, none⟩ : RangeSpec) = r at this
  cases this with
  | start hd =>
    subst hs
    exact absurd (hd.2 'x' (by simp)) (by decide)
  | stop _ _ => simp at hr
  | num _ _ _ => simp at hr
  | log _ _ _ _ => simp at hr
  | base _ _ _ _ _ _ => simp at hr

/-- C60, partial: what is accepted starts with a value of the documented format, and is taken as that value. Missing:
the rest is ignored instead of rejected (`C60_negation`). -/
theorem C60_prefix_partial (s : List Char) (r : RangeSpec) (h : parseRange s = some r) :
    ∃ p rest, s = p ++ rest ∧ RangeFormat p r := by
  unfold parseRange at h
  split at h
  · simp at h
  · rename_i a t ht
    obtain ⟨ds, hds, rfl, rfl⟩ := takeNumber_some ht
    split at h
    · simp only [Option.some.injEq] at h
      subst h
      exact ⟨ds, _, rfl, .start hds⟩
    · rename_i b t' ht'
      obtain ⟨es, hes, rfl, rfl⟩ := takeNumber_some ht'
      split at h
      · simp only [Option.some.injEq] at h
        subst h
        exact ⟨ds ++ '-' :: es, ':' :: t', by simp, .stop hds hes⟩
      · rename_i n t'' ht''
        obtain ⟨ns, hns, rfl, rfl⟩ := takeNumber_some ht''
        simp only [Option.some.injEq] at h
        obtain ⟨colon, hcolon, hc⟩ := dropColon_eq t''
        unfold parseLog at h
        split at h
        · rename_i u hu
          rw [hu] at hc
          obtain ⟨colon', hcolon', hc'⟩ := dropColon_eq u
          split at h
          · rename_i b u' hb
            obtain ⟨bs, hbs, hu', rfl⟩ := takeNumber_some hb
            subst h
            rw [hu'] at hc'
            refine ⟨_, u', ?_, .base hds hes hns hcolon hcolon' hbs⟩
            rw [hc, hc']
            simp
          · subst h
            refine ⟨_, u, ?_, .log hds hes hns hcolon⟩
            rw [hc]
            simp
        · subst h
          exact ⟨ds ++ '-' :: (es ++ ':' :: ns), t'', by simp, .num hds hes hns⟩
    · simp only [Option.some.injEq] at h
      subst h
      rename_i _ t' _ ht'
      obtain ⟨es, hes, rfl, rfl⟩ := takeNumber_some ht'
      exact ⟨ds ++ '-' :: es, t', by simp, .stop hds hes⟩
  · rename_i a t _ ht
    obtain ⟨ds, hds, rfl, rfl⟩ := takeNumber_some ht
    simp only [Option.some.injEq] at h
    subst h
    exact ⟨ds, t, rfl, .start hds⟩

/-- C60, partial: everything of the documented format is accepted, as the value it describes. -/
theorem C60_accepted_partial (s : List Char) (r : RangeSpec) (h : RangeFormat s r) : parseRange s = some r := by
  have tn : ∀ ds rest, Digits ds → (∀ c, rest.head? = some c → c ∉ digits) →
      takeNumber (ds ++ rest) = some (value ds, rest) := fun ds rest hd hr =>
    takeNumber_append ds rest hd.2 hd.1 hr
  have tn' : ∀ ds, Digits ds → takeNumber ds = some (value ds, []) := fun ds hd => by
    simpa using tn ds [] hd (by simp)
  have hm : ∀ (c : Char) t, c ∉ digits → ∀ x, (c :: t : List Char).head? = some x → x ∉ digits := by
    intro c t hc x hx
    simp only [List.head?_cons, Option.some.injEq] at hx
    exact hx ▸ hc
  cases h with
  | start hd => simp [parseRange, tn' _ hd]
  | stop hd he => simp [parseRange, tn _ _ hd (hm '-' _ (by decide)), tn' _ he]
  | num hd he hn =>
    simp [parseRange, tn _ _ hd (hm '-' _ (by decide)), tn _ _ he (hm ':' _ (by decide)), tn' _ hn, parseLog,
      dropColon]
  | @log ds es ns colon hd he hn hc =>
    rcases hc with rfl | rfl
    · have : parseLog ['l', 'o', 'g'] = (true, none) := rfl
      simp [parseRange, tn _ _ hd (hm '-' _ (by decide)), tn _ _ he (hm ':' _ (by decide)),
        tn _ _ hn (hm 'l' _ (by decide)), this]
    · have : parseLog [':', 'l', 'o', 'g'] = (true, none) := rfl
      simp [parseRange, tn _ _ hd (hm '-' _ (by decide)), tn _ _ he (hm ':' _ (by decide)),
        tn _ _ hn (hm ':' _ (by decide)), this]
  | @base ds es ns colon colon' bs hd he hn hc hc' hb =>
    have hdc : dropColon (colon' ++ bs) = bs := by
      rcases hc' with rfl | rfl
      · obtain ⟨hne, hall⟩ := hb
        cases bs with
        | nil => exact absurd rfl hne
        | cons b bs =>
          have := hall b (by simp)
          simp only [List.nil_append]
          unfold dropColon
          split
          · rename_i heq
            simp only [List.cons.injEq] at heq
            rw [heq.1] at this
            exact absurd this (by decide)
          · rfl
      · rfl
    rcases hc with rfl | rfl
    · have : parseLog ('l' :: 'o' :: 'g' :: (colon' ++ bs)) = (true, some (value bs)) := by
        simp [parseLog, dropColon] at hdc ⊢
        rw [hdc, tn' _ hb]
      simp [parseRange, tn _ _ hd (hm '-' _ (by decide)), tn _ _ he (hm ':' _ (by decide)),
        tn _ _ hn (hm 'l' _ (by decide)), this]
    · have : parseLog (':' :: 'l' :: 'o' :: 'g' :: (colon' ++ bs)) = (true, some (value bs)) := by
        simp [parseLog, dropColon] at hdc ⊢
        rw [hdc, tn' _ hb]
      simp [parseRange, tn _ _ hd (hm '-' _ (by decide)), tn _ _ he (hm ':' _ (by decide)),
        tn _ _ hn (hm ':' _ (by decide)), this]

/-- C60: exactly what begins with a digit is accepted. -/
theorem C60_accepted_iff (s : List Char) : (∃ r, parseRange s = some r) ↔ ∃ c t, s = c :: t ∧ c ∈ digits := by
  constructor
  · rintro ⟨r, h⟩
    obtain ⟨p, rest, rfl, hp⟩ := C60_prefix_partial s r h
    have hh : ∀ ds t, Digits ds → ∃ c u, ds ++ t = c :: u ∧ c ∈ digits := by
      rintro ds t ⟨h1, h2⟩
      cases ds with
      | nil => exact absurd rfl h1
      | cons c ds => exact ⟨c, ds ++ t, rfl, h2 c (by simp)⟩
    cases hp with
    | start hd => exact hh _ _ hd
    | stop hd _ => rw [List.append_assoc]; exact hh _ _ hd
    | num hd _ _ => rw [List.append_assoc]; exact hh _ _ hd
    | log hd _ _ _ => rw [List.append_assoc]; exact hh _ _ hd
    | base hd _ _ _ _ _ => rw [List.append_assoc]; exact hh _ _ hd
  · rintro ⟨c, t, rfl, hc⟩
    have hn : takeNumber (c :: t) ≠ none := by
      unfold takeNumber
      simp [(isDigit_iff c).2 hc]
    unfold parseRange
    split
    · next h => exact absurd h hn
    · split
      · exact ⟨_, rfl⟩
      · split <;> exact ⟨_, rfl⟩
      · exact ⟨_, rfl⟩
    · exact ⟨_, rfl⟩

/-- `1-100:10log2` -/
example : RangeFormat "1-100:10log2".toList ⟨1, some 100, some 10, true, some 2⟩ :=
  RangeFormat.base (ds := ['1']) (es := ['1', '0', '0']) (ns := ['1', '0']) (colon := []) (colon' := []) (bs := ['2'])
    (by simp [Digits, digits]) (by simp [Digits, digits]) (by simp [Digits, digits]) (Or.inl rfl) (Or.inl rfl)
    (by simp [Digits, digits])

end Verif.Cli
