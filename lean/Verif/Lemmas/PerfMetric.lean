import Verif.Model.PerfMetric
import Verif.Spec.Counters
import Mathlib.Tactic.ByContra

/-!
Lemmas for C92.
-/

namespace Verif.PerfMetric

/-- Characters that can occur in counters. -/
def InCounter (c : Char) : Prop := isName c = true ∨ isReg c = true ∨ isParam c = true ∨ c = ':'

theorem not_in (x : Char) (hx : ¬ InCounter x) : isName x = false ∧ isReg x = false ∧ isParam x = false ∧ x ≠ ':' := by
  simp only [InCounter, not_or, Bool.not_eq_true] at hx
  exact hx

theorem takeWhile_stop (p : Char → Bool) (w r : List Char) (x : Char) (hx : p x = false) :
    (w ++ x :: r).takeWhile p = w.takeWhile p ∧ (w ++ x :: r).dropWhile p = w.dropWhile p ++ x :: r := by
  induction w with
  | nil => simp [hx]
  | cons c w ih => by_cases h : p c = true <;> simp_all

theorem inParam_other (c : Char) (hc : c ≠ ':') (t : List Char) :
    inParam (c :: t) = if isParam c then c :: inParam t else [] :=
  inParam.eq_2 c t fun _ _ h => absurd h hc

theorem inParam_stop (w r : List Char) (x : Char) (hx : ¬ InCounter x) : inParam (w ++ x :: r) = inParam w := by
  obtain ⟨_, _, h3, h4⟩ := not_in x hx
  induction w using inParam.induct with
  | case1 c s h ih => simp only [List.cons_append, inParam, h, if_true, ih]
  | case2 c s h => simp only [List.cons_append, inParam, h, if_false, Bool.false_eq_true]
  | case3 c s hne h ih =>
    have hc : c ≠ ':' := by rintro rfl; revert h; decide
    rw [List.cons_append, inParam_other c hc, inParam_other c hc, if_pos h, if_pos h, ih]
  | case4 c s hne h =>
    by_cases hc : c = ':'
    · subst hc
      cases s with
      | nil => simp [inParam, h3, h]
      | cons d s => exact absurd rfl (hne d s rfl)
    · rw [List.cons_append, inParam_other c hc, inParam_other c hc, if_neg h, if_neg h]
  | case5 =>
    rw [List.nil_append, inParam_other x h4, h3]
    rfl

theorem params_stop (w r : List Char) (x : Char) (hx : ¬ InCounter x) : params (w ++ x :: r) = params w := by
  obtain ⟨_, _, h3, h4⟩ := not_in x hx
  match w with
  | [] =>
    unfold params
    split
    · rename_i heq; simp only [List.nil_append, List.cons.injEq] at heq; exact absurd heq.1 h4
    · rfl
  | [c] =>
    by_cases hc : c = ':'
    · subst hc; simp [params, h3]
    · have e : ∀ t, params (c :: t) = [] := by
        intro t; unfold params; split
        · rename_i heq; simp only [List.cons.injEq] at heq; exact absurd heq.1 hc
        · rfl
      rw [List.cons_append, e, e]
  | c :: d :: s =>
    by_cases hc : c = ':'
    · subst hc
      simp only [List.cons_append, params, inParam_stop s r x hx]
    · have e : ∀ t, params (c :: t) = [] := by
        intro t; unfold params; split
        · rename_i heq; simp only [List.cons.injEq] at heq; exact absurd heq.1 hc
        · rfl
      rw [List.cons_append, e, e]

theorem matchAt_stop (w r : List Char) (x : Char) (hx : ¬ InCounter x) : matchAt (w ++ x :: r) = matchAt w := by
  obtain ⟨h1, h2, _, h4⟩ := not_in x hx
  unfold matchAt
  rw [(takeWhile_stop isName w r x h1).1, (takeWhile_stop isName w r x h1).2]
  generalize w.takeWhile isName = a
  generalize w.dropWhile isName = b
  match a, b with
  | [], _ => rfl
  | c :: a, [] => simp [h4]
  | c :: a, d :: b =>
    by_cases hd : d = ':'
    · subst hd
      simp only [List.cons_append, (takeWhile_stop isReg b r x h2).1, (takeWhile_stop isReg b r x h2).2,
        params_stop _ r x hx]
    · simp [hd]

theorem inParam_prefix (s : List Char) : inParam s <+: s := by
  induction s using inParam.induct with
  | case1 c s h ih => simp only [inParam, h, if_true]; exact (List.prefix_cons_inj _).2 ((List.prefix_cons_inj _).2 ih)
  | case2 c s h => simp [inParam, h]
  | case3 c s hne h ih => rw [inParam.eq_2 c s hne, if_pos h]; exact (List.prefix_cons_inj _).2 ih
  | case4 c s hne h => rw [inParam.eq_2 c s hne, if_neg h]; exact List.nil_prefix
  | case5 => exact List.nil_prefix

theorem params_prefix (s : List Char) : params s <+: s := by
  unfold params
  split
  · split
    · exact (List.prefix_cons_inj _).2 ((List.prefix_cons_inj _).2 (inParam_prefix _))
    · exact List.nil_prefix
  · exact List.nil_prefix

theorem matchAt_prefix (s m : List Char) (h : matchAt s = some m) : m <+: s ∧ ':' ∈ m := by
  unfold matchAt at h
  split at h
  · cases h
  · rename_i r hd' _
    split at h
    · cases h
    · simp only [Option.some.injEq] at h
      subst h
      refine ⟨?_, by simp⟩
      have e : s = s.takeWhile isName ++ ':' :: (r.takeWhile isReg ++ r.dropWhile isReg) := by
        rw [List.takeWhile_append_dropWhile, ← hd', List.takeWhile_append_dropWhile]
      conv_rhs => rw [e]
      rw [List.append_assoc]
      apply (List.prefix_append_right_inj _).2
      rw [List.cons_append]
      apply (List.prefix_cons_inj _).2
      exact (List.prefix_append_right_inj _).2 (params_prefix _)
  · cases h

/-- Matches do not cross a character that is in no counter. -/
theorem findAll_stop (k : Nat) (w r : List Char) (x : Char) (hx : ¬ InCounter x) (hk : k ≤ w.length) :
    findAll k (w ++ x :: r) = findAll k w ++ findAll 0 r := by
  induction w generalizing k with
  | nil =>
    obtain rfl : k = 0 := by simpa using hk
    have : matchAt (x :: r) = none := by rw [← List.nil_append (x :: r), matchAt_stop [] r x hx]; rfl
    simp [findAll, this]
  | cons c w ih =>
    cases k with
    | succ k => simpa [findAll] using ih k (by simpa using hk)
    | zero =>
      have e := matchAt_stop (c :: w) r x hx
      simp only [List.cons_append] at e
      simp only [List.cons_append, findAll, e]
      cases hm : matchAt (c :: w) with
      | none => simpa using ih 0 (by simp)
      | some m =>
        have := (matchAt_prefix _ _ hm).1.length_le
        simp only [List.length_cons] at this
        simpa using ih (m.length - 1) (by omega)

theorem findAll_plain (k : Nat) (w : List Char) (h : ':' ∉ w) : findAll k w = [] := by
  induction w generalizing k with
  | nil => cases k <;> rfl
  | cons c w ih =>
    have ih := fun k => ih k (fun hm => h (by simp [hm]))
    cases k with
    | succ k => exact ih k
    | zero =>
      simp only [findAll]
      cases hm : matchAt (c :: w) with
      | none => exact ih 0
      | some m =>
        have := matchAt_prefix _ _ hm
        exact absurd (this.1.subset this.2) h

theorem findAll_skip (w : List Char) : findAll w.length w = [] := by
  induction w with
  | nil => rfl
  | cons c w ih => exact ih

theorem findAll_whole (w : List Char) (h : matchAt w = some w) : findAll 0 w = [w] := by
  cases w with
  | nil => simp [matchAt] at h
  | cons c w =>
    simp only [findAll, h, List.length_cons, Nat.add_sub_cancel]
    rw [findAll_skip]

/-- Replacements do not cross a character that is not in the replaced text. -/
theorem replace_stop (old new : List Char) (hne : old ≠ []) (x : Char) (hx : x ∉ old) (k : Nat) (w r : List Char)
    (hk : k ≤ w.length) : replace old new k (w ++ x :: r) = replace old new k w ++ x :: replace old new 0 r := by
  have hpre : ∀ w, old.isPrefixOf (w ++ x :: r) = old.isPrefixOf w := by
    intro w
    rw [Bool.eq_iff_iff, List.isPrefixOf_iff_prefix, List.isPrefixOf_iff_prefix]
    constructor
    · intro h
      rcases List.prefix_or_prefix_of_prefix h (List.prefix_append w (x :: r)) with h' | h'
      · exact h'
      · obtain ⟨t, rfl⟩ := h'
        cases t with
        | nil => simp
        | cons d t =>
          rw [List.prefix_append_right_inj, List.cons_prefix_cons] at h
          exact absurd (by simp [h.1]) hx
    · intro h; exact h.trans (List.prefix_append _ _)
  induction w generalizing k with
  | nil =>
    obtain rfl : k = 0 := by simpa using hk
    have e := hpre []
    have : old.isPrefixOf ([] : List Char) = false := by cases old with
      | nil => exact absurd rfl hne
      | cons a l => rfl
    rw [this, List.nil_append] at e
    simp [replace, e]
  | cons c w ih =>
    cases k with
    | succ k => simpa [replace] using ih k (by simpa using hk)
    | zero =>
      have e := hpre (c :: w)
      simp only [List.cons_append] at e
      simp only [List.cons_append, replace, e]
      split
      · rename_i h
        have := (List.isPrefixOf_iff_prefix.1 h).length_le
        simp only [List.length_cons] at this
        rw [ih _ (by omega), List.append_assoc]
      · rw [ih 0 (by omega)]; rfl

theorem replace_absent (old new w : List Char) (h : ¬ old <:+: w) : replace old new 0 w = w := by
  induction w with
  | nil => rfl
  | cons c w ih =>
    simp only [replace]
    rw [if_neg, ih fun hi => h (hi.trans (List.suffix_cons c w).isInfix)]
    intro hp
    exact h (List.isPrefixOf_iff_prefix.1 hp).isInfix

theorem replace_skip (old new w : List Char) : replace old new w.length w = [] := by
  induction w with
  | nil => rfl
  | cons c w ih => exact ih

theorem replace_whole (old new : List Char) (hne : old ≠ []) : replace old new 0 old = new := by
  cases old with
  | nil => exact absurd rfl hne
  | cons c w =>
    simp only [replace, List.isPrefixOf_iff_prefix.2 (List.prefix_refl _), if_true, List.length_cons, Nat.add_sub_cancel]
    rw [replace_skip, List.append_nil]

open Verif.Counters


theorem not_inCounter (x : Char) (h : Separator x) : ¬ InCounter x := by
  obtain ⟨h1, h2, h3⟩ := h
  simp only [Char.isAlpha, Bool.or_eq_false_iff] at h1
  simp only [List.mem_cons, List.not_mem_nil, or_false, not_or] at h3
  simp [InCounter, isName, isReg, isParam, h1, h2, h3]

theorem isName_of (c : Char) (h : Name c) : isName c = true := by
  rcases h with h | h | h <;> simp [isName, h]

theorem isReg_of (c : Char) (h : Register c) : isReg c = true := by
  rcases h with h | h | h
  · simp [isReg, h]
  · simp [isReg, h]
  · simp only [List.mem_cons, List.not_mem_nil, or_false] at h
    rcases h with h | h | h | h <;> simp [isReg, h]

theorem isParam_of (c : Char) (h : Parameter c) : isParam c = true := by
  rcases h with h | h | h
  · simp only [Char.isAlpha, Bool.or_eq_true] at h
    rcases h with h | h <;> simp [isParam, h]
  · simp [isParam, h]
  · simp only [List.mem_cons, List.not_mem_nil, or_false] at h
    rcases h with h | h | h <;> simp [isParam, h]

theorem takeWhile_all (p : Char → Bool) (w r : List Char) (hw : ∀ c ∈ w, p c = true) (hr : ∀ c t, r = c :: t → p c = false) :
    (w ++ r).takeWhile p = w ∧ (w ++ r).dropWhile p = r := by
  induction w with
  | nil => cases r with
    | nil => simp
    | cons c t => simp [hr c t rfl]
  | cons c w ih =>
    have := ih fun d hd => hw d (by simp [hd])
    simp_all

theorem inParam_word (q r : List Char) (h : ∀ c ∈ q, Parameter c) : inParam (q ++ r) = q ++ inParam r := by
  induction q with
  | nil => rfl
  | cons c q ih =>
    have hc := isParam_of c (h c (by simp))
    have hne : c ≠ ':' := by rintro rfl; revert hc; decide
    rw [List.cons_append, inParam_other c hne, if_pos hc, ih fun d hd => h d (by simp [hd])]
    rfl

theorem inParam_words (ps : List (List Char)) (h : ∀ q ∈ ps, Word Parameter q) :
    inParam (ps.flatMap (':' :: ·)) = ps.flatMap (':' :: ·) := by
  induction ps with
  | nil => rfl
  | cons q ps ih =>
    have hq := h q (by simp)
    match q, hq with
    | [], hq => exact absurd rfl hq.1
    | c :: q, hq =>
      simp only [List.flatMap_cons, List.cons_append, inParam]
      rw [if_pos (isParam_of c (hq.2 c (by simp))), inParam_word _ _ fun d hd => hq.2 d (by simp [hd]),
        ih fun e he => h e (by simp [he])]

theorem params_words (ps : List (List Char)) (h : ∀ q ∈ ps, Word Parameter q) :
    params (ps.flatMap (':' :: ·)) = ps.flatMap (':' :: ·) := by
  cases ps with
  | nil => rfl
  | cons q ps =>
    have e := inParam_words (q :: ps) h
    have hq := h q (by simp)
    match q, hq with
    | [], hq => exact absurd rfl hq.1
    | c :: q, hq =>
      simp only [List.flatMap_cons, List.cons_append, inParam, params] at e ⊢
      exact e

theorem matchAt_counter (w : List Char) (h : IsCounter w) : matchAt w = some w := by
  obtain ⟨a, b, ps, ha, hb, hp, rfl⟩ := h
  have e1 := takeWhile_all isName a (':' :: (b ++ ps.flatMap (':' :: ·))) (fun c hc => isName_of c (ha.2 c hc))
    (by rintro c t ⟨⟩; decide)
  have e2 := takeWhile_all isReg b (ps.flatMap (':' :: ·)) (fun c hc => isReg_of c (hb.2 c hc))
    (by
      intro c t h
      cases ps with
      | nil => cases h
      | cons q ps => simp only [List.flatMap_cons, List.cons_append, List.cons.injEq] at h; rw [← h.1]; decide)
  rw [List.append_assoc, List.cons_append]
  unfold matchAt
  rw [e1.1, e1.2]
  match a, ha with
  | [], ha => exact absurd rfl ha.1
  | c :: a, _ =>
    simp only [e2.1, e2.2, params_words ps hp]
    match b, hb with
    | [], hb => exact absurd rfl hb.1
    | d :: b, _ => simp

theorem counter_colon (w : List Char) (h : IsCounter w) : ':' ∈ w := by
  obtain ⟨a, b, ps, -, -, -, rfl⟩ := h
  simp

theorem not_separator (w : List Char) (h : IsCounter w) (x : Char) (hx : Separator x) : x ∉ w := by
  obtain ⟨a, b, ps, ha, hb, hp, rfl⟩ := h
  obtain ⟨h1, h2, h3⟩ := not_in x (not_inCounter x hx)
  intro hm
  simp only [List.mem_append, List.mem_cons, List.mem_flatMap] at hm
  rcases hm with (hm | hm | hm) | ⟨q, hq, hm | hm⟩
  · rw [isName_of x (ha.2 x hm)] at h1; cases h1
  · exact h3.2 hm
  · rw [isReg_of x (hb.2 x hm)] at h2; cases h2
  · exact h3.2 hm
  · have := h3.1; rw [isParam_of x ((hp q hq).2 x hm)] at this; cases this

theorem findAll_piece (p : Piece) (h : p.Ok) : findAll 0 p.text = p.counter?.toList := by
  cases p with
  | plain w => exact findAll_plain 0 w h
  | counter w => exact findAll_whole w (matchAt_counter w h)

theorem varName_colon (w : List Char) : ':' ∉ varName w := by
  intro h
  simp only [varName, List.mem_append, List.mem_map] at h
  rcases h with h | ⟨c, _, hc⟩
  · revert h; decide
  · unfold clean at hc
    split at hc
    · revert hc; decide
    · rename_i hn; subst hc; exact hn (by decide)

theorem lookup_insert (d : List (List Char × List Char)) (k v k' : List Char) :
    (insert d k v).lookup k' = if k' = k then some v else d.lookup k' := by
  unfold insert
  split
  · rename_i h
    induction d with
    | nil => simp at h
    | cons x d ih =>
      obtain ⟨a, b⟩ := x
      by_cases ha : a = k
      · subst ha
        by_cases hk : k' = a
        · subst hk; simp
        · simp only [List.map_cons, if_true, List.lookup_cons, hk, if_false]
          have : (k' == a) = false := by simpa using hk
          simp only [this]
          clear ih h
          induction d with
          | nil => rfl
          | cons y d ih =>
            obtain ⟨a', b'⟩ := y
            by_cases ha' : a' = a
            · subst ha'; simp [List.lookup_cons, this, ih]
            · simp [List.lookup_cons, ha', ih]
      · have ha' : (k == a) = false := by simpa using fun h => ha h.symm
        simp only [List.lookup_cons, ha'] at h
        have ih := ih h
        simp only [List.map_cons, ha, if_false, List.lookup_cons]
        cases hk : k' == a with
        | true =>
          have : k' = a := by simpa using hk
          subst this
          simp [ha]
        | false => simpa using ih
  · rename_i h
    induction d with
    | nil =>
      by_cases hk : k' = k
      · subst hk; simp
      · have : (k' == k) = false := by simpa using hk
        simp [List.lookup_cons, this, hk]
    | cons x d ih =>
      obtain ⟨a, b⟩ := x
      simp only [List.lookup_cons] at h
      cases hka : k == a with
      | true => simp [hka] at h
      | false =>
        simp only [hka] at h
        have ih := ih h
        simp only [List.cons_append, List.lookup_cons]
        cases hk : k' == a with
        | true =>
          have e : k' = a := by simpa using hk
          subst e
          have : k' ≠ k := by rintro rfl; simp at hka
          simp [this]
        | false => simpa using ih

theorem lookup_fold (pcs : List (List Char)) (d : List (List Char × List Char)) (c : List Char)
    (hinj : ∀ e ∈ pcs, varName e = varName c → e = c) (h : c ∈ pcs ∨ d.lookup (varName c) = some c) :
    (pcs.foldl (fun d pc => insert d (varName pc) pc) d).lookup (varName c) = some c := by
  induction pcs generalizing d with
  | nil => simpa using h
  | cons e pcs ih =>
    rw [List.foldl_cons]
    apply ih _ fun x hx => hinj x (by simp [hx])
    rw [lookup_insert]
    by_cases hv : varName c = varName e
    · right; rw [if_pos hv, hinj e (by simp) hv.symm]
    · rw [if_neg hv]
      rcases h with h | h
      · left
        rcases List.mem_cons.1 h with rfl | h
        · exact absurd rfl hv
        · exact h
      · exact .inr h

theorem mem_insert (d : List (List Char × List Char)) (k v : List Char) (x : List Char × List Char)
    (h : x ∈ insert d k v) : x ∈ d ∨ x = (k, v) := by
  unfold insert at h
  split at h
  · simp only [List.mem_map] at h
    obtain ⟨y, hy, rfl⟩ := h
    split
    · exact .inr rfl
    · exact .inl hy
  · simpa using h

theorem mem_names (pcs : List (List Char)) (d : List (List Char × List Char))
    (x : List Char × List Char) (h : x ∈ pcs.foldl (fun d pc => insert d (varName pc) pc) d) :
    x ∈ d ∨ ∃ c ∈ pcs, x = (varName c, c) := by
  induction pcs generalizing d with
  | nil => exact .inl h
  | cons e pcs ih =>
    rcases ih _ h with h | ⟨c, hc, rfl⟩
    · rcases mem_insert _ _ _ _ h with h | rfl
      · exact .inl h
      · exact .inr ⟨e, by simp, rfl⟩
    · exact .inr ⟨c, by simp [hc], rfl⟩

/-- One after another. -/
def replaceAll (d : List (List Char × List Char)) (t : List Char) : List Char := d.foldl (fun t x => replace x.2 x.1 0 t) t

theorem replaceAll_stop (d : List (List Char × List Char)) (x : Char) (h : ∀ e ∈ d, e.2 ≠ [] ∧ x ∉ e.2) (w r : List Char) :
    replaceAll d (w ++ x :: r) = replaceAll d w ++ x :: replaceAll d r := by
  unfold replaceAll
  induction d generalizing w r with
  | nil => rfl
  | cons e d ih =>
    simp only [List.foldl_cons]
    rw [replace_stop e.2 e.1 (h e (by simp)).1 x (h e (by simp)).2 0 w r (by simp), ih fun f hf => h f (by simp [hf])]

theorem replaceAll_plain (d : List (List Char × List Char)) (h : ∀ e ∈ d, ':' ∈ e.2) (w : List Char) (hw : ':' ∉ w) :
    replaceAll d w = w := by
  unfold replaceAll
  induction d with
  | nil => rfl
  | cons e d ih =>
    rw [List.foldl_cons, replace_absent e.2 e.1 w fun hi => hw (hi.subset (h e (by simp))), ih fun f hf => h f (by simp [hf])]

theorem replaceAll_counter (d : List (List Char × List Char)) (c : List Char) (hc : ':' ∈ c)
    (h : ∀ e ∈ d, ':' ∈ e.2 ∧ e.1 = varName e.2 ∧ (e.2 = c ∨ ¬ e.2 <:+: c)) (hm : (varName c, c) ∈ d) :
    replaceAll d c = varName c := by
  induction d with
  | nil => cases hm
  | cons e d ih =>
    obtain ⟨h1, h2, h3⟩ := h e (by simp)
    by_cases he : e.2 = c
    · unfold replaceAll
      rw [List.foldl_cons, he, replace_whole c e.1 (by rintro rfl; cases hc), h2, he]
      exact replaceAll_plain d (fun f hf => (h f (by simp [hf])).1) _ (varName_colon c)
    · unfold replaceAll
      rw [List.foldl_cons, replace_absent e.2 e.1 c (h3.resolve_left he)]
      apply ih fun f hf => h f (by simp [hf])
      rcases List.mem_cons.1 hm with rfl | hm
      · exact absurd rfl he
      · exact hm

theorem mem_of_lookup (d : List (List Char × List Char)) (k v : List Char) (h : d.lookup k = some v) : (k, v) ∈ d := by
  induction d with
  | nil => cases h
  | cons x d ih =>
    obtain ⟨a, b⟩ := x
    rw [List.lookup_cons] at h
    cases hk : k == a with
    | true =>
      have : k = a := by simpa using hk
      subst this
      simp only [hk, Option.some.injEq] at h
      simp [h]
    | false =>
      simp only [hk] at h
      exact List.mem_cons_of_mem _ (ih h)

theorem replaceAll_render (d : List (List Char × List Char)) (p : Piece) (rest : List (Char × Piece))
    (hsep : ∀ q ∈ rest, ∀ e ∈ d, e.2 ≠ [] ∧ q.1 ∉ e.2) (hpl : ∀ q ∈ p :: rest.map (·.2), ∀ w, q = .plain w → replaceAll d w = w)
    (hc : ∀ c ∈ counters p rest, replaceAll d c = varName c) :
    replaceAll d (render id p rest) = render varName p rest := by
  induction rest generalizing p with
  | nil =>
    cases p with
    | plain w => simpa [render] using hpl (.plain w) (by simp) w rfl
    | counter w => simpa [render] using hc w (by simp [counters, Piece.counter?])
  | cons q rest ih =>
    have e : ∀ f, render f p (q :: rest) = render f p [] ++ q.1 :: render f q.2 rest := by
      intro f; simp [render]
    rw [e, e, replaceAll_stop d q.1 (hsep q (by simp)), ih q.2 (fun x hx => hsep x (by simp [hx]))
      (fun x hx => hpl x (by rw [List.mem_cons] at hx; simp only [List.map_cons, List.mem_cons]; exact .inr hx))
      (fun c hm => hc c (by
        simp only [counters, List.map_cons] at hm ⊢
        rw [List.filterMap_cons]; split
        · exact hm
        · exact List.mem_cons_of_mem _ hm))]
    congr 1
    cases p with
    | plain w => simpa [render] using hpl (.plain w) (by simp) w rfl
    | counter w => simpa [render] using hc w (by simp [counters, Piece.counter?])

end Verif.PerfMetric
