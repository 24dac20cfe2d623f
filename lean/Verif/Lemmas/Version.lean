import Verif.Model.Version
import Verif.Spec.Versions
import Verif.Lemmas.UnitText
import Verif.Lemmas.Text

/-!
Components of versions, and their comparison.
-/

namespace Verif.Version

open Verif.Text Verif.Units Verif.Versions

/-- Text of a version. -/
def text (v : Versions.Version) : List Char :=
  showNat v.major ++ '.' :: showNat v.minor ++ '.' :: showNat v.patch ++
    (match v.dev with
    | none => []
    | some n => ".dev".toList ++ showNat n)

/-- Components of a version. -/
def comps (v : Versions.Version) : List Comp :=
  [.num v.major, .num v.minor, .num v.patch] ++
    (match v.dev with
    | none => []
    | some n => [.word "dev".toList, .num n])

theorem takeWhile_digits (ds rest : List Char) (h : ∀ c ∈ ds, isDigit c = true) (hr : ∀ c ∈ rest.head?, isDigit c = false) :
    (ds ++ rest).takeWhile isDigit = ds ∧ (ds ++ rest).dropWhile isDigit = rest := by
  induction ds with
  | nil =>
    cases rest with
    | nil => simp
    | cons c cs => simp [hr c (by simp)]
  | cons d ds ih =>
    have := ih (fun c hc => h c (List.mem_cons_of_mem _ hc))
    simp [h d (by simp), this]

theorem split_number (k n : Nat) (rest : List Char) (hr : ∀ c ∈ rest.head?, isDigit c = false) :
    split (n + 1) (showNat k ++ rest) = .num k :: split n rest := by
  obtain ⟨h1, h2⟩ := takeWhile_digits (showNat k) rest (showNat_digits k) hr
  have hd := showNat_digits k
  have hne := showNat_ne_nil k
  have hv := natOf_showNat k
  generalize showNat k = ds at *
  cases ds with
  | nil => exact absurd rfl hne
  | cons d ds =>
    have hdd := hd d (by simp)
    have hdot : d ≠ '.' := by rintro rfl; revert hdd; decide
    rw [List.cons_append] at h1 h2 ⊢
    rw [split, if_neg hdot, if_pos hdd, h1, h2, hv]

theorem split_point (n : Nat) (rest : List Char) : split (n + 1) ('.' :: rest) = split n rest := by
  rw [split, if_pos rfl]

theorem split_nil (n : Nat) : split n [] = [] := by cases n <;> rfl

theorem split_dev (n k : Nat) : split (n + 2) ("dev".toList ++ showNat k) = [.word "dev".toList, .num k] := by
  have hx : ∀ c, isDigit c = true → isLow c = false := by
    intro c hc
    simp only [isDigit, Bool.and_eq_true, decide_eq_true_eq] at hc
    simp only [isLow, Bool.and_eq_false_iff, decide_eq_false_iff_not]
    left
    intro hle
    have : (97 : Nat) ≤ c.toNat := hle
    omega
  have hs := split_number k n [] (by simp)
  rw [List.append_nil, split_nil] at hs
  have hd := showNat_digits k
  have hne := showNat_ne_nil k
  generalize showNat k = ds at *
  cases ds with
  | nil => exact absurd rfl hne
  | cons d ds =>
    have hl := hx d (hd d (by simp))
    have e : "dev".toList ++ d :: ds = 'd' :: 'e' :: 'v' :: d :: ds := rfl
    have l1 : isLow 'd' = true := by decide
    have l2 : isLow 'e' = true := by decide
    have l3 : isLow 'v' = true := by decide
    rw [e, split, if_neg (by decide), if_neg (by decide), if_pos (by decide)]
    simp only [List.takeWhile_cons, List.dropWhile_cons, l1, l2, l3, hl, if_true, Bool.false_eq_true, if_false]
    rw [hs]
    rfl

theorem parse_text (v : Versions.Version) : parse (text v) = comps v := by
  have pt : ∀ rest : List Char, ∀ c ∈ ('.' :: rest).head?, isDigit c = false := by
    intro rest c hc
    simp only [List.head?_cons, Option.mem_def, Option.some.injEq] at hc
    subst hc
    decide
  have pos : ∀ k, 1 ≤ (showNat k).length := fun k => List.length_pos_iff.2 (showNat_ne_nil k)
  obtain ⟨a, b, c, dev⟩ := v
  have ha := pos a
  have hb := pos b
  have hc := pos c
  unfold parse
  cases dev with
  | none =>
    have e : text ⟨a, b, c, none⟩ = showNat a ++ '.' :: (showNat b ++ '.' :: (showNat c ++ [])) := by simp [text]
    obtain ⟨n, hn⟩ : ∃ n, (text ⟨a, b, c, none⟩).length = n + 5 := ⟨_, (Nat.sub_add_cancel (by simp [e]; omega)).symm⟩
    rw [hn, e, split_number a (n + 4) _ (pt _), split_point, split_number b (n + 2) _ (pt _), split_point, split_number c n [] (by simp), split_nil]
    rfl
  | some d =>
    have hd := pos d
    have e : text ⟨a, b, c, some d⟩ = showNat a ++ '.' :: (showNat b ++ '.' :: (showNat c ++ '.' :: ("dev".toList ++ showNat d))) := by simp [text]
    obtain ⟨n, hn⟩ : ∃ n, (text ⟨a, b, c, some d⟩).length = n + 8 := ⟨_, (Nat.sub_add_cancel (by simp [e]; omega)).symm⟩
    rw [hn, e, split_number a (n + 7) _ (pt _), split_point, split_number b (n + 5) _ (pt _), split_point, split_number c (n + 3) _ (pt _), split_point,
      split_dev]
    rfl

theorem cmp_num (a b : Nat) (xs ys : List Comp) :
    cmp (.num a :: xs) (.num b :: ys) = if a = b then cmp xs ys else .ok (if a < b then .lt else .gt) := by
  rw [cmp]
  by_cases h : a = b
  · rw [if_pos (by rw [h]), if_pos h]
  · rw [if_neg (by simpa using h), if_neg h]

/-- The two versions have the same numbers, and exactly one of them is a development version. -/
def Mixed (v w : Versions.Version) : Prop :=
  v.major = w.major ∧ v.minor = w.minor ∧ v.patch = w.patch ∧ (v.dev = none ↔ w.dev ≠ none)

theorem before_irrefl (v : Versions.Version) : ¬ Before v v := by
  obtain ⟨a, b, c, d⟩ := v
  cases d <;> simp [Before, devBefore]

theorem before_asymm (v w : Versions.Version) (h : Before v w) : ¬ Before w v := by
  obtain ⟨a, b, c, d⟩ := v
  obtain ⟨a', b', c', d'⟩ := w
  cases d <;> cases d' <;> simp [Before, devBefore] at h ⊢ <;> omega

theorem cmp_comps (v w : Versions.Version) (hm : ¬ Mixed v w) :
    (Before v w ∧ cmp (comps v) (comps w) = .ok .lt) ∨ (v = w ∧ cmp (comps v) (comps w) = .ok .eq) ∨
      (Before w v ∧ cmp (comps v) (comps w) = .ok .gt) := by
  obtain ⟨a, b, c, d⟩ := v
  obtain ⟨a', b', c', d'⟩ := w
  have hsplit : ∀ x y : Nat, x < y ∨ x = y ∧ ¬ x < y ∨ y < x ∧ ¬ x < y ∧ x ≠ y := by omega
  simp only [comps, List.cons_append, List.nil_append]
  rcases hsplit a a' with h | ⟨rfl, -⟩ | ⟨h, h', h''⟩
  · exact .inl ⟨.inl h, by rw [cmp_num, if_neg (by omega), if_pos h]⟩
  · rcases hsplit b b' with h | ⟨rfl, -⟩ | ⟨h, h', h''⟩
    · exact .inl ⟨.inr ⟨rfl, .inl h⟩, by rw [cmp_num, if_pos rfl, cmp_num, if_neg (by omega), if_pos h]⟩
    · rcases hsplit c c' with h | ⟨rfl, -⟩ | ⟨h, h', h''⟩
      · exact .inl ⟨.inr ⟨rfl, .inr ⟨rfl, .inl h⟩⟩, by rw [cmp_num, if_pos rfl, cmp_num, if_pos rfl, cmp_num, if_neg (by omega), if_pos h]⟩
      · rw [cmp_num, if_pos rfl, cmp_num, if_pos rfl, cmp_num, if_pos rfl]
        cases d with
        | none =>
          cases d' with
          | none => exact .inr (.inl ⟨rfl, rfl⟩)
          | some n => exact absurd ⟨rfl, rfl, rfl, by simp⟩ hm
        | some m =>
          cases d' with
          | none => exact absurd ⟨rfl, rfl, rfl, by simp⟩ hm
          | some n =>
            simp only []
            rw [cmp, if_pos rfl, cmp_num]
            rcases hsplit m n with h | ⟨rfl, -⟩ | ⟨h, h', h''⟩
            · exact .inl ⟨.inr ⟨rfl, .inr ⟨rfl, .inr ⟨rfl, h⟩⟩⟩, by rw [if_neg (by omega), if_pos h]⟩
            · exact .inr (.inl ⟨rfl, by rw [if_pos rfl]; rfl⟩)
            · exact .inr (.inr ⟨.inr ⟨rfl, .inr ⟨rfl, .inr ⟨rfl, h⟩⟩⟩, by rw [if_neg h'', if_neg h']⟩)
      · exact .inr (.inr ⟨.inr ⟨rfl, .inr ⟨rfl, .inl h⟩⟩, by
          rw [cmp_num, if_pos rfl, cmp_num, if_pos rfl, cmp_num, if_neg h'', if_neg h']⟩)
    · exact .inr (.inr ⟨.inr ⟨rfl, .inl h⟩, by rw [cmp_num, if_pos rfl, cmp_num, if_neg h'', if_neg h']⟩)
  · exact .inr (.inr ⟨.inl h, by rw [cmp_num, if_neg h'', if_neg h']⟩)

/-- Versions of this form can always be compared. -/
theorem cmp_total (v w : Versions.Version) : ∃ o, cmp (comps v) (comps w) = .ok o := by
  by_cases hm : Mixed v w
  · obtain ⟨a, b, c, d⟩ := v
    obtain ⟨a', b', c', d'⟩ := w
    obtain ⟨rfl, rfl, rfl, hd⟩ : a = a' ∧ b = b' ∧ c = c' ∧ (d = none ↔ d' ≠ none) := hm
    simp only [comps, List.cons_append, List.nil_append]
    rw [cmp_num, if_pos rfl, cmp_num, if_pos rfl, cmp_num, if_pos rfl]
    cases d <;> cases d' <;> simp at hd
    · exact ⟨.lt, rfl⟩
    · exact ⟨.gt, rfl⟩
  · rcases cmp_comps v w hm with h | h | h <;> exact ⟨_, h.2⟩

/-- The versions with changes have this form. -/
theorem changes_form : ∃ vs : List Versions.Version, changes = vs.map text :=
  ⟨[⟨0, 6, 6, none⟩, ⟨0, 7, 1, none⟩, ⟨0, 8, 1, some 0⟩, ⟨0, 8, 3, some 0⟩, ⟨0, 8, 3, some 1⟩, ⟨0, 8, 6, some 0⟩, ⟨0, 8, 11, some 0⟩], by
    decide +kernel⟩

theorem mapM_ok {α β : Type} (f : α → Except String β) (l : List α) (h : ∀ x ∈ l, ∃ y, f x = .ok y) : ∃ ys, l.mapM f = .ok ys := by
  induction l with
  | nil => exact ⟨[], rfl⟩
  | cons x l ih =>
    obtain ⟨y, hy⟩ := h x (by simp)
    obtain ⟨ys, hys⟩ := ih (fun z hz => h z (by simp [hz]))
    exact ⟨y :: ys, by rw [List.mapM_cons, hy, bind, Except.instMonad]; simp [Except.bind, hys, pure, Except.pure]⟩

end Verif.Version
