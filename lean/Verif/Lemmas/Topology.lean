import Verif.Model.Topology
import Verif.Spec.Likwid
import Verif.Lemmas.Text

/-! Lemmas about the readout of a machine. -/

namespace Verif.Topology

open Verif.Text Verif.Clean Verif.Likwid

theorem startsWith_iff (p s : List Char) : startsWith p s = true ↔ p <+: s := by simp [startsWith]

theorem find_first (p s : List Char) (i : Nat) (hp : p ≠ []) (h : First p s i) : find p s = i := by
  induction s generalizing i with
  | nil =>
    obtain ⟨h1, -⟩ := h
    simp at h1
    exact absurd h1 hp
  | cons c cs ih =>
    obtain ⟨h1, h2⟩ := h
    cases i with
    | zero => simp only [find, startsWith_iff]; rw [if_pos (by simpa using h1)]; rfl
    | succ i =>
      have h0 : ¬ p <+: c :: cs := by simpa using h2 0 (by omega)
      have hi := ih i ⟨by simpa using h1, fun j hj => by simpa using h2 (j + 1) (by omega)⟩
      simp only [find, startsWith_iff]
      rw [if_neg h0, hi]
      split
      · rename_i e; omega
      · push_cast; ring

theorem blanks_space {w : List Char} (h : Blanks w) : ∀ c ∈ w, isSpace c = true := by
  intro c hc
  rcases h c hc with rfl | rfl <;> decide

theorem blanks_colon {w : List Char} (h : Blanks w) : ':' ∉ w := fun hc => by rcases h _ hc with e | e <;> cases e

theorem blanks_nl {w : List Char} (h : Blanks w) : '\n' ∉ w := fun hc => by rcases h _ hc with e | e <;> cases e

theorem dropWhile_all {α : Type} (p : α → Bool) (a b : List α) (h : ∀ x ∈ a, p x = true) :
    (a ++ b).dropWhile p = b.dropWhile p := by
  induction a with
  | nil => rfl
  | cons x a ih => rw [List.cons_append, List.dropWhile_cons_of_pos (h x (by simp)), ih fun y hy => h y (by simp [hy])]

theorem takeWhile_all {α : Type} (p : α → Bool) (a b : List α) (h : ∀ x ∈ a, p x = true) :
    (a ++ b).takeWhile p = a ++ b.takeWhile p := by
  induction a with
  | nil => rfl
  | cons x a ih => rw [List.cons_append, List.takeWhile_cons_of_pos (h x (by simp)), ih fun y hy => h y (by simp [hy])]; rfl

theorem head_dropWhile {α : Type} (p : α → Bool) (a : List α) (h : ∀ x ∈ a.head?, p x = false) : a.dropWhile p = a := by
  cases a with
  | nil => rfl
  | cons x a => exact List.dropWhile_cons_of_neg (by simp [h x (by simp)])

theorem head_takeWhile {α : Type} (p : α → Bool) (a : List α) (h : ∀ x ∈ a.head?, p x = false) : a.takeWhile p = [] := by
  cases a with
  | nil => rfl
  | cons x a => exact List.takeWhile_cons_of_neg (by simp [h x (by simp)])

/-- Blanks around a text are removed. -/
theorem strip_blanks (a t b : List Char) (ha : Blanks a) (hb : Blanks b) (hne : t ≠ []) (h1 : ∀ c ∈ t.head?, isSpace c = false)
    (h2 : ∀ c ∈ t.getLast?, isSpace c = false) : strip (a ++ t ++ b) = t := by
  unfold strip
  rw [List.append_assoc, dropWhile_all _ a _ (blanks_space ha), head_dropWhile _ (t ++ b) (by
    cases t with
    | nil => exact absurd rfl hne
    | cons x t => simpa using h1), List.reverse_append, dropWhile_all _ b.reverse _ (fun c hc => blanks_space hb c (by simpa using hc)),
    head_dropWhile _ t.reverse (by simpa using h2), List.reverse_reverse]

/-- The value of a line `key:   text`. -/
theorem value_line (key a t b : List Char) (hk : ':' ∉ key) (ha : Blanks a) (hb : Blanks b) (hne : t ≠ [])
    (h1 : ∀ c ∈ t.head?, isSpace c = false) (h2 : ∀ c ∈ t.getLast?, isSpace c = false) (ht : ':' ∉ t) :
    value ((key ++ [':']) ++ a ++ t ++ b) = t := by
  unfold value
  have e1 : ((key ++ [':']) ++ a ++ t ++ b).dropWhile (· ≠ ':') = ':' :: (a ++ t ++ b) := by
    rw [show (key ++ [':']) ++ a ++ t ++ b = key ++ (':' :: (a ++ t ++ b)) by simp, dropWhile_all]
    · simp
    · intro c hc
      simp only [decide_eq_true_eq, ne_eq]
      rintro rfl
      exact hk hc
  rw [e1]
  simp only [List.drop_succ_cons, List.drop_zero]
  have e2 : (a ++ t ++ b).takeWhile (· ≠ ':') = a ++ t ++ b := by
    have := takeWhile_all (fun c => decide (c ≠ ':')) (a ++ t ++ b) [] fun c hc => by
      simp only [decide_eq_true_eq, ne_eq]
      rintro rfl
      rcases List.mem_append.1 hc with hc | hc
      · rcases List.mem_append.1 hc with hc | hc
        · exact blanks_colon ha hc
        · exact ht hc
      · exact blanks_colon hb hc
    simpa using this
  rw [e2, strip_blanks a t b ha hb hne h1 h2]

theorem mem_head {α : Type} {l : List α} {x : α} (h : x ∈ l.head?) : x ∈ l := List.mem_of_mem_head? h

theorem showNat_head (n : Nat) : ∀ c ∈ (showNat n).head?, isSpace c = false :=
  fun c hc => isDigit_not_space c (showNat_digits n c (List.mem_of_mem_head? hc))

theorem showNat_last (n : Nat) : ∀ c ∈ (showNat n).getLast?, isSpace c = false :=
  fun c hc => isDigit_not_space c (showNat_digits n c (List.mem_of_mem_getLast? hc))

theorem showNat_no (n : Nat) (x : Char) (hx : isDigit x = false) : x ∉ showNat n := by
  intro h
  rw [showNat_digits n x h] at hx
  cases hx

theorem value_level (n : Nat) (l : List Char) (h : LevelLine n l) : value l = showNat n := by
  obtain ⟨a, b, ha, hb, rfl⟩ := h
  exact value_line "Level".toList a (showNat n) b (by decide) ha hb (showNat_ne_nil n) (showNat_head n) (showNat_last n)
    (showNat_no n ':' (by decide))

theorem value_size (t l : List Char) (h : SizeLine t l) : value l = t := by
  obtain ⟨a, b, ha, hb, hne, h1, h2, h3, -, rfl⟩ := h
  exact value_line "Size".toList a t b (by decide) ha hb hne h1 h2 h3

theorem count_groups (gs : List (List Char)) (l : List Char) (h : GroupsLine gs l) : l.count '(' = gs.length := by
  obtain ⟨a, ha, hg, rfl⟩ := h
  have h0 : a.count '(' = 0 := List.count_eq_zero.2 fun hc => by rcases ha _ hc with e | e <;> cases e
  have h1 : ("Cache groups:".toList).count '(' = 0 := by decide
  rw [List.count_append, List.count_append, h0, h1]
  clear h0 h1 ha
  induction gs with
  | nil => simp
  | cons g gs ih =>
    have := ih fun x hx => hg x (by simp [hx])
    have h2 : g.count '(' = 0 := List.count_eq_zero.2 (hg g (by simp)).1
    simp only [List.flatMap_cons, List.count_append, List.count_cons, List.cons_append, List.length_cons, h2] at this ⊢
    simp at this ⊢
    omega

theorem parseInt_showNat (n : Nat) : parseInt (showNat n) = some (n : Int) := by
  have := parseInt_showInt (n : Int)
  have h : ¬ ((n : Int) < 0) := by omega
  simpa [showInt, h] using this

theorem showInt_succ (n : Nat) : showInt ((n : Int) + 1) = showNat (n + 1) := by
  have h : ¬ ((n : Int) + 1 < 0) := by omega
  have e : ((n : Int) + 1).natAbs = n + 1 := by omega
  simp [showInt, h, e]

theorem onLast_concat (f : Level → Level) (ls : List Level) (l : Level) : onLast f (ls ++ [l]) = ls ++ [f l] := by
  induction ls with
  | nil => rfl
  | cons x ls ih =>
    cases ls with
    | nil => rfl
    | cons y ls => simpa [onLast] using ih


/-! ### Lines -/

theorem step_other (p : Bool) (r : Readouts) (ls : List Level) (l : List Char) (h : Other l) : step p r ls l = .ok ls := by
  obtain ⟨-, h1, h2, h3⟩ := h
  simp only [step, startsWith_iff]
  rw [if_neg h1, if_neg h2, if_neg h3]

theorem fold_others (p : Bool) (r : Readouts) (ls : List Level) (os rest : List (List Char)) (h : ∀ o ∈ os, Other o) :
    (os ++ rest).foldlM (step p r) ls = rest.foldlM (step p r) ls := by
  induction os with
  | nil => rfl
  | cons o os ih =>
    simp only [List.cons_append, List.foldlM_cons, step_other p r ls o (h o (by simp))]
    exact ih fun x hx => h x (by simp [hx])

theorem step_level (p : Bool) (r : Readouts) (ls : List Level) (n : Nat) (l : List Char) (h : LevelLine n l) :
    step p r ls l = .ok (ls ++ [{ name := 'L' :: showNat n }]) := by
  have hv := value_level n l h
  obtain ⟨a, b, ha, hb, rfl⟩ := h
  have hs : startsWith "Level:".toList ("Level:".toList ++ a ++ showNat n ++ b) = true := by
    rw [startsWith_iff]; simp only [List.append_assoc]; exact List.prefix_append _ _
  rw [step, if_pos hs, hv]

theorem step_size (r : Readouts) (ls : List Level) (n : Nat) (t l : List Char) (q : Units.Parsed) (hq : Units.read t = .ok q)
    (h : SizeLine t l) : step true r (ls ++ [{ name := 'L' :: showNat n }]) l =
      .ok (ls ++ [{ name := 'L' :: showNat n, loadFrom := some ('L' :: showNat (n + 1)), storeTo := some ('L' :: showNat (n + 1)),
                    size := some q }]) := by
  have hv := value_size t l h
  obtain ⟨a, b, ha, hb, -, -, -, -, -, rfl⟩ := h
  have h0 : ¬ startsWith "Level:".toList ("Size:".toList ++ a ++ t ++ b) = true := by simp [startsWith]
  have hs : startsWith "Size:".toList ("Size:".toList ++ a ++ t ++ b) = true := by
    rw [startsWith_iff]; simp only [List.append_assoc]; exact List.prefix_append _ _
  rw [step, if_neg h0, if_pos hs, hv]
  simp only [hq, List.getLast?_concat, Bool.not_true, Bool.false_eq_true, if_false, List.drop_succ_cons, List.drop_zero,
    parseInt_showNat, showInt_succ, onLast_concat]

theorem step_groups (p : Bool) (r : Readouts) (ls : List Level) (x : Level) (gs : List (List Char)) (l : List Char)
    (h : GroupsLine gs l) (hne : gs ≠ []) : step p r (ls ++ [x]) l =
      .ok (ls ++ [{ x with groups := some gs.length, coresPerGroup := some (r.coresPerSocket * r.sockets / gs.length),
                           threadsPerGroup := some (r.coresPerSocket * r.sockets / gs.length * r.threadsPerCore) }]) := by
  have hc := count_groups gs l h
  obtain ⟨a, ha, hg, rfl⟩ := h
  have h0 : ¬ startsWith "Level:".toList ("Cache groups:".toList ++ a ++ gs.flatMap fun g => '(' :: g ++ [')', ' ']) = true := by
    simp [startsWith]
  have h1 : ¬ startsWith "Size:".toList ("Cache groups:".toList ++ a ++ gs.flatMap fun g => '(' :: g ++ [')', ' ']) = true := by
    simp [startsWith]
  have hs : startsWith "Cache groups:".toList ("Cache groups:".toList ++ a ++ gs.flatMap fun g => '(' :: g ++ [')', ' ']) = true := by
    rw [startsWith_iff, List.append_assoc]; exact List.prefix_append _ _
  rw [step, if_neg h0, if_neg h1, if_pos hs]
  simp only [hc]
  rw [if_neg (by simpa using hne), onLast_concat]

/-! ### Numbers -/

theorem blanks_digit {w : List Char} (h : Blanks w) : ∀ c ∈ w, isDigit c = false := by
  intro c hc
  rcases h c hc with rfl | rfl <;> decide

theorem matchField_line (key a b post : List Char) (n : Nat) (ha : Blanks a) (hne : a ≠ []) (hb : Blanks b)
    (hp : post = [] ∨ post.head? = some '\n') : matchField key (key ++ a ++ showNat n ++ b ++ post) = some n := by
  have hs : startsWith key (key ++ a ++ showNat n ++ b ++ post) = true := by
    rw [startsWith_iff]; simp only [List.append_assoc]; exact List.prefix_append _ _
  have e0 : (key ++ a ++ showNat n ++ b ++ post).drop key.length = a ++ (showNat n ++ (b ++ post)) := by
    simp only [List.append_assoc, List.drop_left]
  have hdig : ∀ x ∈ (showNat n ++ (b ++ post)).head?, isSpace x = false := by
    cases hsn : showNat n with
    | nil => exact absurd hsn (showNat_ne_nil n)
    | cons y ys =>
      intro x hx
      have hx' : y = x := by simpa using hx
      exact showNat_head n x (by rw [hsn]; simp [hx'])
  have hnd : ∀ x ∈ (b ++ post).head?, isDigit x = false := by
    intro x hx
    cases b with
    | cons y ys =>
      have : y = x := by simpa using hx
      exact blanks_digit hb x (by simp [this])
    | nil =>
      rcases hp with rfl | hp
      · cases hx
      · have : x = '\n' := by simpa [hp] using hx.symm
        subst this
        decide
  rw [matchField, if_pos hs]
  simp only [e0]
  rw [dropWhile_all _ a _ (blanks_space ha), head_dropWhile _ _ hdig, takeWhile_all _ (showNat n) _ (showNat_digits n),
    dropWhile_all _ (showNat n) _ (showNat_digits n), head_takeWhile _ _ hnd, head_dropWhile _ _ hnd, List.append_nil,
    takeWhile_all _ a _ (blanks_space ha), dropWhile_all _ b _ (blanks_space hb), takeWhile_all _ b _ (blanks_space hb)]
  rw [if_pos, parseDigits_showNat]
  refine ⟨by simp [hne], showNat_ne_nil n, ?_⟩
  rcases hp with rfl | hp
  · left; rfl
  · right
    cases post with
    | nil => cases hp
    | cons y ys =>
      have : y = '\n' := by simpa using hp
      subst this
      refine List.mem_append_right _ ?_
      rw [List.takeWhile_cons_of_pos (by decide)]
      simp

/-- Nothing is found before the line. -/
theorem search_pre {α : Type} (m : List Char → Option α) (key pre rest : List Char) (n : α) (hm : ∀ t, ¬ key <+: t → m t = none) (hk : '\n' ∉ key) (hpre : pre = [] ∨ pre.getLast? = some '\n')
    (hl : ∀ l ∈ splitNl pre, ¬ key <+: l) (hr : m rest = some n) :
    search m true (pre ++ rest) = some n := by
  have key' : ∀ (pre : List Char) (b : Bool), (b = true → ∀ l ∈ splitNl pre, ¬ key <+: l) →
      (b = false → ∀ l ∈ (splitNl pre).tail, ¬ key <+: l) →
      (pre.getLast? = some '\n' ∨ (pre = [] ∧ b = true)) → search m b (pre ++ rest) = some n := by
    intro pre
    induction pre with
    | nil =>
      rintro b - - (h | ⟨-, rfl⟩)
      · cases h
      · rw [List.nil_append]
        cases rest with
        | nil => simp only [search, if_true, hr]
        | cons c cs => simp only [search, if_true, hr]
    | cons c cs ih =>
      intro b h1 h2 h3
      have hno : (if b = true then m (c :: (cs ++ rest)) else none) = none := by
        cases b with
        | false => rfl
        | true =>
          have hfst := h1 rfl
          rw [if_pos rfl]
          refine hm _ fun hp => ?_
          -- the key lies in the first line
          have hlast : (c :: cs).getLast? = some '\n' := by
            rcases h3 with h | ⟨h, -⟩
            · exact h
            · cases h
          obtain ⟨w, hw⟩ : ∃ w, c :: cs = w ++ ['\n'] := by
            have hne' : c :: cs ≠ [] := by simp
            refine ⟨(c :: cs).dropLast, ?_⟩
            have := List.dropLast_append_getLast hne'
            rw [List.getLast?_eq_some_getLast hne'] at hlast
            simp only [Option.some.injEq] at hlast
            rw [hlast] at this
            exact this.symm
          have hfirst : ∃ l r, w ++ ['\n'] = l ++ '\n' :: r ∧ '\n' ∉ l := by
            clear hw hp
            induction w with
            | nil => exact ⟨[], [], rfl, by simp⟩
            | cons x w ihm =>
              by_cases hx : x = '\n'
              · exact ⟨[], w ++ ['\n'], by simp [hx], by simp⟩
              · obtain ⟨l, r, e, hl⟩ := ihm
                exact ⟨x :: l, r, by simp [e], by simp [hl, Ne.symm hx]⟩
          obtain ⟨l, r, e, hnl⟩ := hfirst
          have e2 : c :: cs = l ++ '\n' :: r := hw.trans e
          have hmem : l ∈ splitNl (c :: cs) := by
            rw [e2, splitNl_append, splitNl_line l hnl]
            simp
          refine hfst l hmem ?_
          have hp2 : key <+: l ++ ('\n' :: r ++ rest) := by
            have : c :: (cs ++ rest) = l ++ ('\n' :: r ++ rest) := by
              rw [← List.cons_append, e2]; simp
            rwa [this] at hp
          rcases Nat.lt_or_ge l.length key.length with hlt | hge
          · exfalso
            obtain ⟨u, hu⟩ := hp2
            apply hk
            have : (key ++ u)[l.length]? = some '\n' := by rw [hu]; simp
            rw [List.getElem?_append_left hlt] at this
            exact List.mem_of_getElem? this
          · exact List.prefix_of_prefix_length_le hp2 (List.prefix_append _ _) hge
      rw [List.cons_append, search, hno]
      simp only
      by_cases hc : c = '\n'
      · subst hc
        refine ih true ?_ (by simp) ?_
        · intro _ l hl'
          have : splitNl ('\n' :: cs) = [] :: splitNl cs := by simp [splitNl]
          cases b with
          | true => exact h1 rfl l (by rw [this]; simp [hl'])
          | false => exact h2 rfl l (by rw [this]; simpa using hl')
        · cases cs with
          | nil => exact .inr ⟨rfl, rfl⟩
          | cons y ys =>
            left
            rcases h3 with h | ⟨h, -⟩
            · simpa using h
            · cases h
      · have hb : (c == '\n') = false := by simpa using hc
        rw [hb]
        refine ih false (by simp) ?_ ?_
        · intro _ l hl'
          have hsp : (splitNl (c :: cs)).tail = (splitNl cs).tail := by
            rw [splitNl, if_neg hc]
            split <;> rename_i e
            · simp [e]
            · exact absurd e (splitNl_ne_nil cs)
          rw [← hsp] at hl'
          cases b with
          | true => exact h1 rfl l (List.mem_of_mem_tail hl')
          | false => exact h2 rfl l hl'
        · left
          rcases h3 with h | ⟨h, -⟩
          · cases cs with
            | nil => simp at h; exact absurd h hc
            | cons y ys => simpa using h
          · cases h
  refine key' pre true (fun _ => hl) (by simp) ?_
  rcases hpre with rfl | h
  · exact .inr ⟨rfl, rfl⟩
  · exact .inl h

theorem field_of (key : String) (n : Nat) (s : List Char) (hk : '\n' ∉ key.toList)
    (h : HasField key.toList n s) : field key s = .ok n := by
  obtain ⟨pre, a, b, post, ha, han, hb, rfl, hp, hpre, hl⟩ := h
  rw [field]
  have := search_pre (matchField key.toList) key.toList pre (key.toList ++ a ++ showNat n ++ b ++ post) n
    (fun t ht => by rw [matchField, if_neg (by rwa [startsWith_iff])]) hk hpre hl
    (matchField_line key.toList a b post n ha han hb hp)
  simp only [List.append_assoc] at this ⊢
  rw [this]

end Verif.Topology
