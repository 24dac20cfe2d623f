import Verif.Model.BenchRun
import Verif.Spec.BenchRun
import Verif.Lemmas.Analyzer

/-! Lemmas about the use of `likwid-bench`. -/

namespace Verif.BenchRun

open Verif.Text Verif.Clean Verif.Units Verif.Likwid Verif.BenchSpec Verif.Topology

/-! ### Numbers -/

theorem matchDec_number (x : ℚ) (t rest : List Char) (h : Number x t) (hd : ∀ c ∈ rest.head?, isDigit c = false) (hp : rest.head? ≠ some '.') :
    matchDec (t ++ rest) = some (x, rest) := by
  rcases h with ⟨n, rfl, rfl⟩ | ⟨d, hne, rfl, rfl⟩
  · have h1 := takeWhile_digits (showNat n) rest (showNat_digits n) hd
    unfold matchDec
    simp only [h1.1, h1.2, if_neg (showNat_ne_nil _), natOf_showNat]
    split
    · exact absurd rfl hp
    · rfl
  · have h1 := takeWhile_digits (showNat d.whole) ('.' :: (d.frac.map digitChar ++ rest)) (showNat_digits _) (by
      intro c hc
      simp only [List.head?_cons, Option.some.injEq] at hc
      subst hc
      decide)
    have h2 := takeWhile_digits (d.frac.map digitChar) rest (by
      intro c hc
      obtain ⟨x, hx, rfl⟩ := List.mem_map.1 hc
      exact digitChar_isDigit x (d.small x hx)) hd
    have e : d.text ++ rest = showNat d.whole ++ '.' :: (d.frac.map digitChar ++ rest) := by simp [Tables.Dec.text]
    rw [e]
    unfold matchDec
    simp only [h1.1, h1.2, if_neg (showNat_ne_nil _), h2.1, h2.2, natOf_showNat]
    rw [if_neg (by simpa using hne), natOf_map _ d.small, List.length_map, Tables.Dec.value]
    have := foldl_reverse_digits d.frac.reverse
    rw [List.reverse_reverse] at this
    rw [this]

theorem number_ne (x : ℚ) (t : List Char) (h : Number x t) : t ≠ [] := by
  rcases h with ⟨n, -, rfl⟩ | ⟨d, -, -, rfl⟩
  · exact showNat_ne_nil n
  · exact Analyzer.text_ne_nil d

theorem number_space (x : ℚ) (t : List Char) (h : Number x t) : ∀ c ∈ t, isSpace c = false := by
  rcases h with ⟨n, -, rfl⟩ | ⟨d, -, -, rfl⟩
  · exact fun c hc => isDigit_not_space c (showNat_digits n c hc)
  · exact Analyzer.text_space d

theorem matchRate_none (t : List Char) (h : ¬ "MByte/s:".toList <+: t) : matchRate t = none := by
  rw [matchRate, if_neg (by rwa [startsWith_iff])]

theorem matchRate_line (x : ℚ) (a t b post : List Char) (ha : Blanks a) (hne : a ≠ []) (hb : Blanks b) (ht : Number x t)
    (hp : post = [] ∨ post.head? = some '\n') : matchRate ("MByte/s:".toList ++ a ++ t ++ b ++ post) = some x := by
  have hs : startsWith "MByte/s:".toList ("MByte/s:".toList ++ a ++ t ++ b ++ post) = true := by
    rw [startsWith_iff]; simp only [List.append_assoc]; exact List.prefix_append _ _
  have e0 : ("MByte/s:".toList ++ a ++ t ++ b ++ post).drop "MByte/s:".toList.length = a ++ (t ++ (b ++ post)) := by
    simp only [List.append_assoc, List.drop_left]
  have hts : ∀ c ∈ (t ++ (b ++ post)).head?, isSpace c = false := by
    rw [Analyzer.head_append (number_ne x t ht)]
    exact fun c hc => number_space x t ht c (List.mem_of_mem_head? hc)
  have hsp : ∀ c ∈ (b ++ post).head?, c = ' ' ∨ c = '\t' ∨ c = '\n' := by
    intro c hc
    cases b with
    | cons y ys =>
      have : y = c := by simpa using hc
      rcases hb c (by simp [this]) with h | h
      · exact .inl h
      · exact .inr (.inl h)
    | nil =>
      rcases hp with rfl | hp
      · cases hc
      · right; right; simpa [hp] using hc.symm
  rw [matchRate, if_pos hs]
  simp only [e0]
  rw [dropWhile_all _ a _ (blanks_space ha), head_dropWhile _ _ hts,
    matchDec_number x t _ ht (fun c hc => by rcases hsp c hc with rfl | rfl | rfl <;> decide)
      (fun h => by rcases hsp '.' h with h | h | h <;> cases h)]
  simp only
  rw [takeWhile_all _ a _ (blanks_space ha), dropWhile_all _ b _ (blanks_space hb), takeWhile_all _ b _ (blanks_space hb), if_pos]
  refine ⟨by simp [hne], ?_⟩
  rcases hp with rfl | hp
  · left; rfl
  · right
    cases post with
    | nil => cases hp
    | cons y ys =>
      have : y = '\n' := by simpa using hp
      subst this
      refine List.mem_append_right _ ?_
      rw [List.takeWhile_cons_of_pos (by decide)]
      simp

/-- The first line. -/
theorem splitNl_head (s : List Char) : ∃ ls, splitNl s = s.takeWhile (· ≠ '\n') :: ls := by
  induction s with
  | nil => exact ⟨[], rfl⟩
  | cons c cs ih =>
    obtain ⟨ls, e⟩ := ih
    by_cases hc : c = '\n'
    · subst hc
      exact ⟨splitNl cs, by simp [splitNl]⟩
    · refine ⟨ls, ?_⟩
      simp [splitNl, hc, e]

theorem prefix_line (key s : List Char) (hk : '\n' ∉ key) (h : key <+: s) : key <+: s.takeWhile (· ≠ '\n') := by
  obtain ⟨r, rfl⟩ := h
  rw [takeWhile_all _ key _ (by intro x hx; simp only [decide_eq_true_eq]; rintro rfl; exact hk hx)]
  exact List.prefix_append _ _

theorem search_none {α : Type} (m : List Char → Option α) (key s : List Char) (hm : ∀ t, ¬ key <+: t → m t = none) (hk : '\n' ∉ key)
    (h : ∀ l ∈ splitNl s, ¬ key <+: l) : search m true s = none := by
  have gen : ∀ (s : List Char) (b : Bool), (b = true → ∀ l ∈ splitNl s, ¬ key <+: l) →
      (b = false → ∀ l ∈ (splitNl s).tail, ¬ key <+: l) → search m b s = none := by
    intro s
    induction s with
    | nil =>
      intro b h1 _
      cases b with
      | false => rfl
      | true => simpa [search] using hm [] (h1 rfl [] (by simp [splitNl]))
    | cons c cs ih =>
      intro b h1 h2
      have hno : (if b = true then m (c :: cs) else none) = none := by
        cases b with
        | false => rfl
        | true =>
          rw [if_pos rfl]
          refine hm _ fun hp => ?_
          obtain ⟨ls, e⟩ := splitNl_head (c :: cs)
          exact h1 rfl _ (by rw [e]; simp) (prefix_line key _ hk hp)
      rw [search, hno]
      simp only
      by_cases hc : c = '\n'
      · subst hc
        have hs : splitNl ('\n' :: cs) = [] :: splitNl cs := by simp [splitNl]
        refine ih true (fun _ l hl => ?_) (by simp)
        cases b with
        | true => exact h1 rfl l (by rw [hs]; simp [hl])
        | false => exact h2 rfl l (by rw [hs]; simpa using hl)
      · have hb : (c == '\n') = false := by simpa using hc
        rw [hb]
        refine ih false (by simp) (fun _ l hl => ?_)
        have hsp : (splitNl (c :: cs)).tail = (splitNl cs).tail := by
          rw [splitNl, if_neg hc]
          split <;> rename_i e
          · simp [e]
          · exact absurd e (splitNl_ne_nil cs)
        rw [← hsp] at hl
        cases b with
        | true => exact h1 rfl l (List.mem_of_mem_tail hl)
        | false => exact h2 rfl l hl
  exact gen s true (fun _ => h) (by simp)

/-! ### Measuring -/

theorem measure_speed (run : Option (List Char)) (x : ℚ) (h : Speed run x) : measure run = .ok ⟨x, ['M'], "B/s".toList⟩ := by
  obtain ⟨s, rfl, pre, a, t, b, post, ha, hne, hb, ht, rfl, hp, hpre, hl⟩ := h
  have h1 := search_pre matchRate "MByte/s:".toList pre ("MByte/s:".toList ++ a ++ t ++ b ++ post) x matchRate_none (by decide) hpre hl
    (matchRate_line x a t b post ha hne hb ht hp)
  simp only [← List.append_assoc] at h1
  have hmk : mk2 x "MB/s".toList = .ok ⟨x, ['M'], "B/s".toList⟩ := rfl
  cases hs : pre ++ "MByte/s:".toList ++ a ++ t ++ b ++ post with
  | nil => simp at hs
  | cons c cs =>
    rw [hs] at h1
    simp only [measure, h1, hmk]

theorem measure_failure (run : Option (List Char)) (h : Failure run) :
    measure run = .error "CalledProcessError" ∨ measure run = .error "ValueError" := by
  rcases h with rfl | ⟨s, rfl, hne, hl⟩
  · exact .inl rfl
  · right
    cases s with
    | nil => exact absurd rfl hne
    | cons c cs => simp only [measure, search_none matchRate "MByte/s:".toList (c :: cs) matchRate_none (by decide) hl]

/-! ### The fastest kernel -/

theorem results_spec (run : List Char → Option (List Char)) (ks : List (List Char))
    (h : ∀ k ∈ ks, (∃ x, Speed (run k) x) ∨ Failure (run k)) :
    ∃ rs, results run ks = .ok rs ∧ ∀ u k, (u, k) ∈ rs ↔ k ∈ ks ∧ ∃ x, Speed (run k) x ∧ u = ⟨x, ['M'], "B/s".toList⟩ := by
  induction ks with
  | nil => exact ⟨[], rfl, by simp⟩
  | cons k ks ih =>
    obtain ⟨rs, e, hrs⟩ := ih fun k' hk' => h k' (by simp [hk'])
    rcases h k (by simp) with ⟨x, hx⟩ | hf
    · have hm := measure_speed _ _ hx
      refine ⟨(⟨x, ['M'], "B/s".toList⟩, k) :: rs, by simp only [results, hm, e, Except.map], fun u j => ?_⟩
      rw [List.mem_cons, hrs, List.mem_cons, Prod.mk.injEq]
      constructor
      · rintro (⟨rfl, rfl⟩ | ⟨h1, h2⟩)
        · exact ⟨.inl rfl, x, hx, rfl⟩
        · exact ⟨.inr h1, h2⟩
      · rintro ⟨rfl | h1, y, hy, rfl⟩
        · left
          have := measure_speed _ _ hy
          rw [hm] at this
          injection this with this
          exact ⟨this.symm, rfl⟩
        · exact .inr ⟨h1, y, hy, rfl⟩
    · have hm := measure_failure _ hf
      refine ⟨rs, ?_, fun u j => ?_⟩
      · rcases hm with hm | hm <;> simp [results, hm, e]
      · rw [hrs, List.mem_cons]
        constructor
        · exact fun ⟨h1, h2⟩ => ⟨.inr h1, h2⟩
        · rintro ⟨rfl | h1, y, hy, rfl⟩
          · have := measure_speed _ _ hy
            rcases hm with hm | hm <;> rw [hm] at this <;> cases this
          · exact ⟨h1, y, hy, rfl⟩

/-- The order of the pairs. -/
def Below (b a : Units.Unit × List Char) : Prop := b.1.base < a.1.base ∨ (b.1.base = a.1.base ∧ b.2 ≤ a.2)

theorem below_refl (a : Units.Unit × List Char) : Below a a := .inr ⟨rfl, List.le_refl _⟩

theorem below_trans {a b c : Units.Unit × List Char} (h : Below a b) (h' : Below b c) : Below a c := by
  rcases h with h | ⟨e, h⟩ <;> rcases h' with h' | ⟨e', h'⟩
  · exact .inl (h.trans h')
  · exact .inl (e' ▸ h)
  · exact .inl (e ▸ h')
  · exact .inr ⟨e.trans e', List.le_trans h h'⟩

theorem greater_below (a b : Units.Unit × List Char) : if greater a b then Below b a else Below a b := by
  unfold greater Below
  by_cases he : a.1.base = b.1.base
  · rw [if_pos he]
    by_cases hl : b.2 < a.2
    · simp [hl, he, List.le_of_lt hl]
    · simp [hl, he, List.not_lt.1 hl]
  · rw [if_neg he]
    rcases lt_or_gt_of_ne he with h | h
    · simp [not_lt.2 h.le, h]
    · simp [h]

theorem best_spec (x : Units.Unit × List Char) (xs : List (Units.Unit × List Char)) :
    ∃ u k, best (x :: xs) = .ok k ∧ (u, k) ∈ x :: xs ∧ ∀ y ∈ x :: xs, Below y (u, k) := by
  have gen : ∀ (xs : List (Units.Unit × List Char)) (m : Units.Unit × List Char),
      ∃ r, xs.foldl (fun m y => if greater y m then y else m) m = r ∧ r ∈ m :: xs ∧ ∀ y ∈ m :: xs, Below y r := by
    intro xs
    induction xs with
    | nil => exact fun m => ⟨m, rfl, by simp, by simpa using below_refl m⟩
    | cons y ys ih =>
      intro m
      obtain ⟨r, e, hr, hb⟩ := ih (if greater y m then y else m)
      refine ⟨r, e, ?_, ?_⟩
      · rcases List.mem_cons.1 hr with h | h
        · split at h <;> simp [h]
        · simp [h]
      · have hg := greater_below y m
        have hm := hb _ (List.mem_cons_self)
        intro z hz
        rcases List.mem_cons.1 hz with rfl | hz
        · split at hg <;> rename_i hc
          · rw [if_pos hc] at hm; exact below_trans hg hm
          · rw [if_neg hc] at hm; exact hm
        · rcases List.mem_cons.1 hz with rfl | hz
          · split at hg <;> rename_i hc
            · rw [if_pos hc] at hm; exact hm
            · rw [if_neg hc] at hm; exact below_trans hg hm
          · exact hb z (by simp [hz])
  obtain ⟨r, e, hr, hb⟩ := gen xs x
  exact ⟨r.1, r.2, by rw [best, e], hr, hb⟩

/-! ### Available kernels -/

theorem contains_iff (p s : List Char) : contains p s = true ↔ p <:+: s := by
  induction s with
  | nil => simp [contains, List.isEmpty_iff]
  | cons c cs ih => rw [contains, Bool.or_eq_true, startsWith_iff, ih, List.infix_cons_iff]

theorem before_entry (n l : List Char) (h : Entry n l) : before " - ".toList l = n := by
  obtain ⟨-, hs, h⟩ := h
  have hno : ∀ (n r : List Char), (∀ c ∈ n, isSpace c = false) → before " - ".toList (n ++ r) = n ++ before " - ".toList r := by
    intro n r hn
    induction n with
    | nil => rfl
    | cons c cs ih =>
      rw [List.cons_append, before, if_neg, ih fun x hx => hn x (by simp [hx])]
      · rfl
      · rw [startsWith_iff]
        rintro ⟨u, hu⟩
        have hc : c = ' ' := by
          have := congrArg List.head? hu
          simpa using this.symm
        have := hn c (by simp)
        rw [hc] at this
        cases this
  rcases h with rfl | ⟨d, -, -, -, rfl⟩
  · have := hno l [] hs
    simpa [before] using this
  · rw [List.append_assoc, hno n _ hs]
    have : before " - ".toList (" - ".toList ++ d) = [] := by
      have e : " - ".toList ++ d = ' ' :: '-' :: ' ' :: d := rfl
      rw [e, before, if_pos]
      rw [startsWith_iff, ← e]
      exact List.prefix_append _ _
    rw [this, List.append_nil]

theorem entry_ne (n l : List Char) (h : Entry n l) : l ≠ [] ∧ (∀ c ∈ l.head?, isSpace c = false) ∧ (∀ c ∈ l.getLast?, isSpace c = false) ∧
    '\n' ∉ l := by
  obtain ⟨hne, hs, h⟩ := h
  have hn : '\n' ∉ n := fun hc => by have := hs _ hc; cases this
  rcases h with rfl | ⟨d, hd, hdn, hl, rfl⟩
  · exact ⟨hne, fun c hc => hs c (List.mem_of_mem_head? hc), fun c hc => hs c (List.mem_of_mem_getLast? hc), hn⟩
  · refine ⟨by simp [hne], ?_, ?_, ?_⟩
    · rw [List.append_assoc, Analyzer.head_append hne]
      exact fun c hc => hs c (List.mem_of_mem_head? hc)
    · rw [Analyzer.last_append hd]; exact hl
    · simp [hn, hdn]

theorem strip_spaces (a t b : List Char) (ha : ∀ c ∈ a, isSpace c = true) (hb : ∀ c ∈ b, isSpace c = true) (hne : t ≠ [])
    (h1 : ∀ c ∈ t.head?, isSpace c = false) (h2 : ∀ c ∈ t.getLast?, isSpace c = false) : strip (a ++ t ++ b) = t := by
  rw [strip, List.append_assoc, dropWhile_all _ a _ ha, head_dropWhile _ (t ++ b) (by rw [Analyzer.head_append hne]; exact h1),
    List.reverse_append, dropWhile_all _ b.reverse _ (by simpa using hb), head_dropWhile _ _ (by simpa using h2), List.reverse_reverse]

theorem join_ends (names ls : List (List Char)) (hne : names ≠ []) (h : List.Forall₂ Entry names ls) :
    joinNl ls ≠ [] ∧ (∀ c ∈ (joinNl ls).head?, isSpace c = false) ∧ (∀ c ∈ (joinNl ls).getLast?, isSpace c = false) ∧ ls ≠ [] ∧
      ∀ l ∈ ls, '\n' ∉ l := by
  induction h with
  | nil => exact absurd rfl hne
  | @cons n l ns ls hnl h ih =>
    obtain ⟨a1, a2, a3, a4⟩ := entry_ne n l hnl
    cases ls with
    | nil => exact ⟨a1, a2, a3, by simp, by simpa using a4⟩
    | cons l' ls' =>
      obtain ⟨b1, -, b3, -, b5⟩ := ih (by rintro rfl; cases h)
      refine ⟨by simp [joinNl], ?_, ?_, by simp, ?_⟩
      · rw [joinNl, Analyzer.head_append a1]
        · exact a2
        · simp
      · rw [joinNl, Analyzer.last_append (by simp)]
        · rw [List.getLast?_cons_of_ne_nil b1]
          exact b3
        · simp
      · intro x hx
        rcases List.mem_cons.1 hx with rfl | hx
        · exact a4
        · exact b5 x hx

theorem available_spec (pre : List Char) (ex names : List (List Char)) (out : List Char) (h : Listing names out) (k : List Char) :
    k ∈ available pre ex out ↔ k ∈ names ∧ Suits pre ex k := by
  obtain ⟨a, ls, b, ha, hb, hne, hl, rfl⟩ := h
  obtain ⟨j1, j2, j3, j4, j5⟩ := join_ends names ls hne hl
  rw [available, strip_spaces _ _ _ ha hb j1 j2 j3, splitNl_joinNl ls j4 j5]
  have hmap : ls.map (before " - ".toList) = names := by
    clear j1 j2 j3 j4 j5 hne
    induction hl with
    | nil => rfl
    | cons h1 _ ih => rw [List.map_cons, before_entry _ _ h1, ih]
  rw [hmap, List.mem_filter, Bool.and_eq_true, startsWith_iff, Bool.not_eq_true', List.any_eq_false]
  simp only [contains_iff, Suits]

/-! ### Work groups -/

theorem count_div (t c j : Nat) (ht : 0 < t) :
    (List.range (t * c)).countP (fun k => decide (k / t = j)) = if j < c then t else 0 := by
  induction c with
  | zero => simp
  | succ c ih =>
    rw [Nat.mul_succ, List.range_add, List.countP_append, ih, List.countP_map]
    have hk : (List.range t).countP ((fun k => decide (k / t = j)) ∘ fun x => t * c + x) = if c = j then t else 0 := by
      by_cases hj : c = j
      · rw [if_pos hj]
        have : (List.range t).countP ((fun k => decide (k / t = j)) ∘ fun x => t * c + x) = (List.range t).length := by
          rw [List.countP_eq_length]
          intro x hx
          have hx' : x < t := List.mem_range.1 hx
          simp only [Function.comp, decide_eq_true_eq]
          rw [Nat.mul_add_div ht, Nat.div_eq_of_lt hx', hj, Nat.add_zero]
        rw [this, List.length_range]
      · rw [if_neg hj, List.countP_eq_zero]
        intro x hx
        have hx' : x < t := List.mem_range.1 hx
        simp only [Function.comp, decide_eq_true_eq]
        rw [Nat.mul_add_div ht, Nat.div_eq_of_lt hx', Nat.add_zero]
        exact hj
    rw [hk]
    split <;> split <;> split <;> omega

end Verif.BenchRun
