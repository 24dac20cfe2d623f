import Verif.Model.Pheno
import Verif.Spec.PhenoArgs
import Verif.Lemmas.Regex
import Verif.Lemmas.BenchRun

/-! Lemmas about the arguments of the stand-alone benchmark. -/

namespace Verif.Pheno

open Verif.Text Verif.Units Verif.Regex Verif.PhenoArgs Verif.BenchSpec

/-! ### Regions -/

theorem isWord_of {c : Char} (h : WordChar c) : isWord c = true := by
  rcases h with h | h | h | h <;> simp [isWord, h]

theorem isWord_comma : isWord ',' = false := by decide

theorem isWord_colon : isWord ':' = false := by decide

theorem name_word {n : List Char} (h : Name n) : ∀ x ∈ n, isWord x = true := by
  obtain ⟨c, w, rfl, -, h1, h2⟩ := h
  intro x hx
  rcases List.mem_cons.1 hx with rfl | hx
  · exact isWord_of h1
  · exact isWord_of (h2 x hx)

theorem name_comma {n : List Char} (h : Name n) : ',' ∉ n := fun hc => by
  have := name_word h _ hc
  rw [isWord_comma] at this
  cases this

/-- Names with commas between them. -/
def joinNames : List (List Char) → List Char
  | [] => []
  | [n] => n
  | n :: m :: ns => n ++ ',' :: joinNames (m :: ns)

theorem regionText_eq (ns : List (List Char)) (h : ns ≠ []) : regionText ns = joinNames ns ++ [':'] := by
  induction ns with
  | nil => exact absurd rfl h
  | cons n ns ih =>
    cases ns with
    | nil => rfl
    | cons m ns => rw [regionText, ih (by simp), joinNames]; simp

theorem splitOn_names (ns : List (List Char)) (h : ns ≠ []) (hn : ∀ n ∈ ns, Name n) : Analyzer.splitOn ',' (joinNames ns) = ns := by
  induction ns with
  | nil => exact absurd rfl h
  | cons n ns ih =>
    cases ns with
    | nil => exact Analyzer.splitOn_line ',' n (name_comma (hn n (by simp)))
    | cons m ns =>
      rw [joinNames, Analyzer.splitOn_append ',' n _ (name_comma (hn n (by simp))), ih (by simp) fun x hx => hn x (by simp [hx])]

/-- `\D\w*,` -/
abbrev itemRe : Pat (List Char) := cat (chr fun c => !isDigit c) (cat (star isWord) (chr (· == ',')))

theorem item_head (n rest : List Char) (h : Name n) : (itemRe (n ++ ',' :: rest)).head? = some (n ++ [','], rest) := by
  obtain ⟨c, w, rfl, h0, -, h2⟩ := h
  exact cat_head (x := [c]) (by rw [List.cons_append, chr_cons (by simp [h0])]; rfl) (cat_head
    (star_head w (',' :: rest) (fun x hx => isWord_of (h2 x hx)) (by simp [isWord_comma])) (by rw [chr_cons (by decide)]; rfl))

theorem item_nil (n rest : List Char) (h : Name n) : itemRe (n ++ ':' :: rest) = [] := by
  refine List.eq_nil_iff_forall_not_mem.2 fun ⟨z, t⟩ hm => ?_
  obtain ⟨x, r, y, h1, h2, -⟩ := cat_mem hm
  obtain ⟨u, r', v, h3, h4, -⟩ := cat_mem h2
  obtain ⟨c, rfl, e1, -⟩ := chr_mem h1
  obtain ⟨e2, hu⟩ := star_mem h3
  obtain ⟨d, rfl, e3, hd⟩ := chr_mem h4
  have hd' : d = ',' := by simpa using hd
  subst hd' e3 e2
  -- a comma lies behind the word `c :: u`, but the first character behind the word is a colon
  have hw := name_word h
  have hc0 : n ≠ [] := by
    obtain ⟨c', w', e, -⟩ := h
    rw [e]
    simp
  have key : ∀ (n p : List Char), (∀ x ∈ n, isWord x = true) → (∀ x ∈ p.tail, isWord x = true) → n ≠ [] → p ≠ [] →
      n ++ ':' :: rest ≠ p ++ ',' :: t := by
    intro n
    induction n with
    | nil => intro p _ _ h _; exact absurd rfl h
    | cons a n ih =>
      intro p hn hp _ hpne e
      cases p with
      | nil => exact absurd rfl hpne
      | cons b p =>
        simp only [List.cons_append, List.cons.injEq] at e
        obtain ⟨rfl, e⟩ := e
        cases n with
        | nil =>
          cases p with
          | nil => simp at e
          | cons b' p =>
            simp only [List.nil_append, List.cons_append, List.cons.injEq] at e
            have := hp b' (by simp)
            rw [← e.1, isWord_colon] at this
            cases this
        | cons a' n =>
          cases p with
          | nil =>
            simp only [List.nil_append, List.cons_append, List.cons.injEq] at e
            have := hn a' (by simp)
            rw [e.1, isWord_comma] at this
            cases this
          | cons b' p =>
            exact ih (b' :: p) (fun x hx => hn x (by simp [hx])) (fun x hx => hp x (by simp at hx ⊢; exact .inr hx)) (by simp) (by simp) e
  exact key n (c :: u) hw (by simpa using hu) hc0 (by simp) (by simpa using e1)

theorem many_names (ns : List (List Char)) (rest : List Char) (h : ns ≠ []) (hn : ∀ n ∈ ns, Name n) (k : Nat) (hk : ns.length ≤ k) :
    ∃ u n, joinNames ns = u ++ n ∧ Name n ∧ (many itemRe k (joinNames ns ++ ':' :: rest)).head? = some (u, n ++ ':' :: rest) := by
  induction ns generalizing k with
  | nil => exact absurd rfl h
  | cons n ns ih =>
    have h1 := hn n (by simp)
    cases ns with
    | nil => exact ⟨[], n, rfl, h1, by rw [joinNames, many_none k (item_nil n rest h1)]; rfl⟩
    | cons m ns =>
      obtain ⟨k, rfl⟩ : ∃ j, k = j + 1 := ⟨k - 1, by simp at hk; omega⟩
      obtain ⟨u, l, e, hl, hh⟩ := ih (by simp) (fun x hx => hn x (by simp [hx])) k (by simpa using hk)
      refine ⟨n ++ [','] ++ u, l, by rw [joinNames, e]; simp, hl, many_head k ?_ hh⟩
      rw [joinNames, List.append_assoc, List.cons_append]
      exact item_head n _ h1

theorem join_length (ns : List (List Char)) : ns.length ≤ (joinNames ns).length + 1 := by
  induction ns with
  | nil => simp
  | cons n ns ih =>
    cases ns with
    | nil => simp
    | cons m ns => simp only [joinNames, List.length_append, List.length_cons] at ih ⊢; omega

theorem region_names (ns : List (List Char)) (rest : List Char) (h : ns ≠ []) (hn : ∀ n ∈ ns, Name n) :
    (regionRe (regionText ns ++ rest)).head? = some (some (joinNames ns), rest) := by
  rw [regionText_eq ns h, List.append_assoc, List.singleton_append]
  obtain ⟨u, n, e, hl, hh⟩ := many_names ns rest h hn (joinNames ns ++ ':' :: rest).length (by
    have := join_length ns; simp; omega)
  refine group_head (bind_head (x := joinNames ns) (r := ':' :: rest) ?_ (bind_head (x := [':']) (r := rest) ?_ (ret_head _ _)))
  · rw [e]
    rw [e] at hh
    refine cat_head hh ?_
    obtain ⟨c, w, rfl, h0, -, h2⟩ := hl
    exact cat_head (x := [c]) (by rw [List.cons_append, chr_cons (by simp [h0])]; rfl)
      (star_head w (':' :: rest) (fun x hx => isWord_of (h2 x hx)) (by simp [isWord_colon]))
  · rw [chr_cons (by decide)]; rfl

theorem region_digit (s : List Char) (h : ∃ c ∈ s.head?, isDigit c = true) : regionRe s = [(none, s)] := by
  obtain ⟨c, hc, hd⟩ := h
  have hnd : ∀ p : Pat (List Char), cat (chr fun c => !isDigit c) p s = [] := by
    intro p
    refine cat_nil_left (chr_nil fun x hx => ?_)
    rw [Option.mem_def] at hc hx
    rw [hc] at hx
    cases hx
    simp [hd]
  unfold regionRe
  refine group_none (bind_nil fun x r hx => ?_)
  exfalso
  obtain ⟨u, t, v, h1, h2, -⟩ := cat_mem hx
  rw [many_none _ (hnd _)] at h1
  simp only [List.mem_singleton, Prod.mk.injEq] at h1
  rw [h1.2, hnd] at h2
  cases h2

/-- The regions of a text that goes on with a digit. -/
theorem region_head (ns : List (List Char)) (rest : List Char) (hn : ∀ n ∈ ns, Name n) (hr : ∃ c ∈ rest.head?, isDigit c = true) :
    ∃ o, (regionRe (regionText ns ++ rest)).head? = some (o, rest) ∧ regions o = regionsOf ns := by
  by_cases h : ns = []
  · subst h
    exact ⟨none, by rw [regionText, List.nil_append, region_digit rest hr]; rfl, rfl⟩
  · exact ⟨_, region_names ns rest h hn, by rw [regions, splitOn_names ns h hn, regionsOf, if_neg h]⟩

theorem showNat_first (n : Nat) (rest : List Char) : ∃ c ∈ (showNat n ++ rest).head?, isDigit c = true := by
  cases h : showNat n with
  | nil => exact absurd h (showNat_ne_nil n)
  | cons c cs => exact ⟨c, by simp, showNat_digits n c (by simp [h])⟩

/-! ### Bounds of loops -/

theorem dot_false {rest : List Char} (h : rest.head? ≠ some '.') : ∀ c ∈ rest.head?, (c == '.') = false := by
  intro c hc
  rw [beq_eq_false_iff_ne]
  rintro rfl
  exact h hc

theorem bound_head (n : Nat) (rest : List Char) (h1 : ∀ c ∈ rest.head?, isDigit c = false) (h2 : rest.head? ≠ some '.') :
    (boundRe (showNat n ++ rest)).head? = some (showNat n, rest) := by
  have := cat_head (b := cat (opt (chr (· == '.'))) (star isDigit)) (y := []) (t := rest)
    (plus_head (showNat n) rest (showNat_ne_nil n) (showNat_digits n) h1) (cat_head (x := []) (y := [])
      (by rw [opt_none (chr_nil (dot_false h2))]; rfl) (by rw [star_none rest h1]; rfl))
  rwa [List.append_nil] at this

theorem bound_mem {s x r : List Char} (h : (x, r) ∈ boundRe s) : s = x ++ r ∧ x ≠ [] ∧ ∀ c ∈ x, isDigit c = true ∨ c = '.' := by
  obtain ⟨u, t, v, h1, h2, rfl⟩ := cat_mem h
  obtain ⟨w, t', z, h3, h4, rfl⟩ := cat_mem h2
  obtain ⟨rfl, ha, hne⟩ := plus_mem h1
  obtain ⟨rfl, hb⟩ := star_mem h4
  have hw : t = w ++ (z ++ r) ∧ ∀ c ∈ w, c = '.' := by
    rcases opt_mem h3 with h5 | ⟨rfl, h5⟩
    · obtain ⟨c, rfl, rfl, hc⟩ := chr_mem h5
      exact ⟨rfl, by simpa using hc⟩
    · exact ⟨h5.symm, by simp⟩
  refine ⟨by rw [hw.1]; simp, by simp [hne], ?_⟩
  intro c hc
  rcases List.mem_append.1 hc with hc | hc
  · exact .inl (ha c hc)
  · rcases List.mem_append.1 hc with hc | hc
    · exact .inr (hw.2 c hc)
    · exact .inl (hb c hc)

/-- Behind a number that ends with a colon or at the end, nothing else is found before a colon. -/
theorem bound_colon {n : Nat} {rest x r : List Char} (h1 : ∀ c ∈ rest.head?, isDigit c = false) (h2 : rest.head? ≠ some '.')
    (h : (x, ':' :: r) ∈ boundRe (showNat n ++ rest)) : rest = ':' :: r := by
  obtain ⟨e, -, hx⟩ := bound_mem h
  rcases List.append_eq_append_iff.1 e with ⟨u, rfl, hu⟩ | ⟨u, hs, hu⟩
  · cases u with
    | nil => simpa using hu
    | cons c u =>
      exfalso
      have hc : c ∈ rest.head? := by rw [hu]; simp
      rcases hx c (by simp) with h | h
      · rw [h1 c hc] at h; cases h
      · subst h; exact h2 hc
  · cases u with
    | nil => simpa using hu.symm
    | cons c u =>
      exfalso
      have := showNat_digits n c (by rw [hs]; simp)
      simp only [List.cons_append, List.cons.injEq] at hu
      rw [← hu.1] at this
      cases this

theorem bound_nil {s : List Char} (h : ∀ c ∈ s.head?, isDigit c = false) : boundRe s = [] := cat_nil_left (plus_nil h)

theorem loop_first (l : Loop) (h : l.Plain) : ∃ o, first loopRe l.text = some ⟨o, showNat l.start, l.step.map showNat, showNat l.stop, l.var⟩ ∧
    regions o = regionsOf l.regions := by
  obtain ⟨ns, a, b, c, v⟩ := l
  obtain ⟨hn, hv⟩ := h
  simp only at hn hv
  -- the end with the variable
  have hend : ∀ (o : Option (List Char)) (sa : List Char) (sb : Option (List Char)),
      ((bind boundRe fun c => bind (group (bind (chr (· == ':')) fun _ => cat (chr fun c => !isDigit c) (star fun c => !isSpace c))) fun v =>
        ret (⟨o, sa, sb, c, v⟩ : LoopMatch)) (showNat c ++ varText v)).head? =
        some (⟨o, sa, sb, showNat c, v⟩, []) := by
    intro o sa sb
    cases v with
    | none =>
      refine bind_head (bound_head c [] (by simp) (by simp)) ?_
      rw [bind_group, bind_nil]
      · rfl
      · intro x r hx
        rw [bind_nil] at hx
        · cases hx
        · intro x r hx; cases hx
    | some v =>
      obtain ⟨d, w, rfl, hd, hw⟩ := hv v rfl
      refine bind_head (bound_head c (':' :: d :: w) (by simp; decide) (by simp)) (bind_head (x := some (d :: w)) (r := []) ?_ (ret_head _ _))
      refine group_head (bind_head (x := [':']) (r := d :: w) (by rw [chr_cons (by decide)]; rfl) ?_)
      have := star_head (p := fun c => !isSpace c) w [] (fun x hx => by simp [hw x hx]) (by simp)
      rw [List.append_nil] at this
      exact cat_head (x := [d]) (y := w) (by rw [chr_cons (by simp [hd])]; rfl) this
  have hcol : ∀ rest : List Char, (∀ c ∈ (':' :: rest).head?, isDigit c = false) ∧ (':' :: rest).head? ≠ some '.' :=
    fun rest => ⟨by simp; decide, by simp⟩
  have htext : (Loop.mk ns a b c v).text = regionText ns ++ (showNat a ++ ':' :: (stepText b ++
      (showNat c ++ varText v))) := by
    simp [Loop.text]
  obtain ⟨o, ho, hreg⟩ := region_head ns _ hn (showNat_first a (':' :: (stepText b ++
      (showNat c ++ varText v))))
  refine ⟨o, first_of (r := []) ?_, hreg⟩
  rw [htext]
  refine bind_head ho (bind_head (bound_head a _ (hcol _).1 (hcol _).2) (bind_head (x := [':']) (by rw [chr_cons (by decide)]; rfl) ?_))
  cases b with
  | some b =>
    refine bind_head (x := some (showNat b)) (r := showNat c ++ varText v) (group_head (bind_head (x := showNat b)
      (r := ':' :: (showNat c ++ varText v)) ?_ (bind_head (x := [':']) ?_ (ret_head _ _)))) ?_
    · simp only [stepText, List.append_assoc, List.singleton_append]
      exact bound_head b _ (hcol _).1 (hcol _).2
    · rw [chr_cons (by decide)]; rfl
    · exact hend o (showNat a) (some (showNat b))
  | none =>
    rw [stepText, List.nil_append, bind_group, bind_nil]
    · exact hend o (showNat a) none
    · intro x r hx
      obtain ⟨y, t, hy, hx⟩ := bind_mem hx
      obtain ⟨z, t', hz, hx⟩ := bind_mem hx
      simp only [ret, List.mem_singleton, Prod.mk.injEq] at hx
      obtain ⟨rfl, rfl⟩ := hx
      obtain ⟨d, rfl, rfl, hd⟩ := chr_mem hz
      have hd' : d = ':' := by simpa using hd
      subst hd'
      have hrest : varText v = ':' :: r := by
        refine bound_colon ?_ ?_ hy
        · cases v <;> (simp [varText]; try decide)
        · cases v <;> simp [varText]
      cases v with
      | none => cases hrest
      | some v =>
        obtain ⟨d, w, rfl, hd, -⟩ := hv v rfl
        simp only [varText, List.cons.injEq, true_and] at hrest
        subst hrest
        exact bind_nil fun u t hu => by rw [bound_nil (by simpa using hd)] at hu; cases hu

/-! ### Numbers -/

/-- `(?:[eE][-+]?[0-9]+)?` -/
abbrev expRe : Pat (List Char) :=
  opt (cat (chr fun c => c == 'e' || c == 'E') (cat (opt (chr fun c => c == '-' || c == '+')) (plus isDigit)))

/-- The text of an exponent. -/
def ExpText (e : List Char) : Prop :=
  e = [] ∨ ∃ c g k, (c = 'e' ∨ c = 'E') ∧ (g = [] ∨ g = ['+'] ∨ g = ['-']) ∧ e = c :: g ++ showNat k

/-- What may follow a number. -/
def Stop (rest : List Char) : Prop := ∀ c ∈ rest.head?, isDigit c = false ∧ c ≠ '.' ∧ c ≠ 'e' ∧ c ≠ 'E'

theorem exp_head (e rest : List Char) (he : ExpText e) (hr : Stop rest) : (expRe (e ++ rest)).head? = some (e, rest) := by
  rcases he with rfl | ⟨c, g, k, hc, hg, rfl⟩
  · rw [List.nil_append, expRe, opt_none (cat_nil_left (chr_nil fun c hc => ?_))]
    · rfl
    · simp [(hr c hc).2.2.1, (hr c hc).2.2.2]
  · refine opt_head (cat_head (x := [c]) (y := g ++ showNat k) (r := g ++ showNat k ++ rest) ?_ ?_)
    · simp only [List.cons_append]
      rw [chr_cons (by simpa using hc)]
      rfl
    · rw [List.append_assoc]
      refine cat_head (r := showNat k ++ rest) ?_ (plus_head _ _ (showNat_ne_nil k) (showNat_digits k) fun c hc => (hr c hc).1)
      rcases hg with rfl | rfl | rfl
      · rw [List.nil_append, opt_none (chr_nil ?_)]
        · rfl
        · intro c hc
          obtain ⟨c', hc', hd⟩ := showNat_first k rest
          rw [Option.mem_def] at hc hc'
          rw [hc] at hc'
          cases hc'
          have : c ≠ '-' ∧ c ≠ '+' := by constructor <;> rintro rfl <;> cases hd
          simp [this.1, this.2]
      · exact opt_head (by rw [List.singleton_append, chr_cons (by decide)]; rfl)
      · exact opt_head (by rw [List.singleton_append, chr_cons (by decide)]; rfl)

theorem exp_stop (e rest : List Char) (he : ExpText e) (hr : Stop rest) : ∀ c ∈ (e ++ rest).head?, isDigit c = false ∧ c ≠ '.' := by
  rcases he with rfl | ⟨c, g, k, hc, -, rfl⟩
  · exact fun c hc => ⟨(hr c hc).1, (hr c hc).2.1⟩
  · intro x hx
    have : c = x := by simpa using hx
    subst this
    rcases hc with rfl | rfl <;> decide

theorem tail_head (w e rest : List Char) (hne : w ≠ []) (hw : ∀ c ∈ w, isDigit c = true) (he : ExpText e) (hr : Stop rest) :
    (cat (plus isDigit) expRe (w ++ (e ++ rest))).head? = some (w ++ e, rest) :=
  cat_head (plus_head w _ hne hw fun c hc => (exp_stop e rest he hr c hc).1) (exp_head e rest he hr)

theorem mantissa_head (y : ℚ) (u e rest : List Char) (h : Number y u) (he : ExpText e) (hr : Stop rest) :
    (floatRe (u ++ (e ++ rest))).head? = some (u ++ e, rest) := by
  have hs := exp_stop e rest he hr
  rcases h with ⟨n, -, rfl⟩ | ⟨d, hne, -, rfl⟩
  · obtain ⟨w, x, hwx⟩ : ∃ w x, showNat n = w ++ [x] :=
      ⟨(showNat n).dropLast, (showNat n).getLast (showNat_ne_nil n), (List.dropLast_append_getLast _).symm⟩
    have hd := showNat_digits n
    rw [hwx] at hd ⊢
    have hx : isDigit x = true := hd x (by simp)
    obtain ⟨l, hl⟩ := star_two w x (e ++ rest) (fun c hc => hd c (by simp [hc])) hx fun c hc => (hs c hc).1
    rw [List.append_assoc, List.singleton_append]
    unfold floatRe
    rw [cat, bind_cons hl]
    have h1 : bind (cat (opt (chr (· == '.'))) (cat (plus isDigit) expRe)) (fun y => ret (w ++ [x] ++ y)) (e ++ rest) = [] := by
      refine bind_nil fun z r hz => ?_
      exfalso
      obtain ⟨z1, r1, z2, h1, h2, -⟩ := cat_mem hz
      rw [opt_none (chr_nil (dot_false fun h => (hs _ h).2 rfl))] at h1
      simp only [List.mem_singleton, Prod.mk.injEq] at h1
      rw [h1.2, cat_nil_left (plus_nil fun c hc => (hs c hc).1)] at h2
      cases h2
    rw [h1, List.nil_append, List.flatMap_cons, List.head?_append]
    have h2 : (bind (cat (opt (chr (· == '.'))) (cat (plus isDigit) expRe)) (fun y => ret (w ++ y)) (x :: (e ++ rest))).head? =
        some (w ++ [x] ++ e, rest) := by
      rw [List.append_assoc]
      refine bind_head (x := [x] ++ e) (r := rest) (cat_head (x := []) (y := [x] ++ e) (r := x :: (e ++ rest)) ?_ ?_) (ret_head _ _)
      · rw [opt_none (chr_nil (dot_false ?_))]
        · rfl
        · intro h
          have : x = '.' := by simpa using h
          subst this
          cases hx
      · exact tail_head [x] e rest (by simp) (by simpa using hx) he hr
    rw [h2]
    rfl
  · have hd : ∀ c ∈ d.frac.map digitChar, isDigit c = true := by
      intro c hc
      obtain ⟨x, hx, rfl⟩ := List.mem_map.1 hc
      exact digitChar_isDigit x (d.small x hx)
    have e1 : d.text ++ (e ++ rest) = showNat d.whole ++ '.' :: (d.frac.map digitChar ++ (e ++ rest)) := by simp [Tables.Dec.text]
    have e2 : d.text ++ e = showNat d.whole ++ (['.'] ++ (d.frac.map digitChar ++ e)) := by simp [Tables.Dec.text]
    rw [e1, e2]
    exact cat_head (star_head _ _ (showNat_digits _) (by simp; decide)) (cat_head (opt_head (by rw [chr_cons (by decide)]; rfl))
      (tail_head _ e rest (by simpa using hne) hd he hr))

theorem mantissa_value (y : ℚ) (u e : List Char) (h : Number y u) (he : ExpText e) : floatOf (u ++ e) = y * 10 ^ exponentOf e := by
  have hs : ∀ c ∈ e.head?, isDigit c = false ∧ c ≠ '.' := by
    have := exp_stop e [] he (by simp [Stop])
    rwa [List.append_nil] at this
  rcases h with ⟨n, rfl, rfl⟩ | ⟨d, hne, rfl, rfl⟩
  · have h1 := takeWhile_digits (showNat n) e (showNat_digits n) fun c hc => (hs c hc).1
    unfold floatOf
    simp only [h1.1, h1.2, natOf_showNat]
    split
    · exact absurd rfl (hs '.' (by simp)).2
    · rfl
  · have h1 := takeWhile_digits (showNat d.whole) ('.' :: (d.frac.map digitChar ++ e)) (showNat_digits _) (by
      intro c hc
      simp only [List.head?_cons, Option.some.injEq] at hc
      subst hc
      decide)
    have h2 := takeWhile_digits (d.frac.map digitChar) e (by
      intro c hc
      obtain ⟨x, hx, rfl⟩ := List.mem_map.1 hc
      exact digitChar_isDigit x (d.small x hx)) fun c hc => (hs c hc).1
    have e1 : d.text ++ e = showNat d.whole ++ '.' :: (d.frac.map digitChar ++ e) := by simp [Tables.Dec.text]
    rw [e1]
    unfold floatOf
    simp only [h1.1, h1.2, h2.1, h2.2, natOf_showNat]
    rw [natOf_map _ d.small, List.length_map, Tables.Dec.value]
    have := foldl_reverse_digits d.frac.reverse
    rw [List.reverse_reverse] at this
    rw [this]

theorem float_split (x : ℚ) (t : List Char) (h : Float x t) : ∃ y u e, Number y u ∧ ExpText e ∧ t = u ++ e ∧ x = y * 10 ^ exponentOf e := by
  rcases h with h | ⟨y, u, c, g, k, hy, hc, hg, rfl⟩
  · exact ⟨x, t, [], h, .inl rfl, by simp, by simp [exponentOf]⟩
  · refine ⟨y, u, c :: g ++ showNat k, hy, .inr ⟨c, g, k, hc, ?_, rfl⟩, by simp, ?_⟩
    · rcases hg with ⟨h, -⟩ | ⟨h, -⟩
      · rcases h with h | h
        · exact .inl h
        · exact .inr (.inl h)
      · exact .inr (.inr h)
    · rcases hg with ⟨rfl | rfl, rfl⟩ | ⟨rfl, rfl⟩
      · obtain ⟨z, hz, hd⟩ := showNat_first k []
        rw [List.append_nil] at hz
        have hk := natOf_showNat k
        cases hs : showNat k with
        | nil => exact absurd hs (showNat_ne_nil k)
        | cons z' zs =>
          rw [hs] at hz hk
          have : z' = z := by simpa using hz
          subst this
          have : exponentOf (c :: [] ++ z' :: zs) = (k : Int) := by
            simp only [List.cons_append, List.nil_append]
            unfold exponentOf
            split
            · rename_i heq; simp only [List.cons.injEq] at heq; rw [heq.2.1] at hd; cases hd
            · rename_i heq; simp only [List.cons.injEq] at heq; rw [heq.2.1] at hd; cases hd
            · rename_i heq; simp only [List.cons.injEq] at heq; rw [← heq.2, hk]
            · rename_i heq; cases heq
          rw [this, zpow_natCast]
      · have : exponentOf (c :: ['+'] ++ showNat k) = (k : Int) := by
          simp only [List.cons_append, List.nil_append, exponentOf, natOf_showNat]
        rw [this, zpow_natCast]
      · have : exponentOf (c :: ['-'] ++ showNat k) = -(k : Int) := by
          simp only [List.cons_append, List.nil_append, exponentOf, natOf_showNat]
        rw [this, zpow_neg, zpow_natCast, div_eq_mul_inv]

theorem float_head (x : ℚ) (t rest : List Char) (h : Float x t) (hr : Stop rest) : (floatRe (t ++ rest)).head? = some (t, rest) := by
  obtain ⟨y, u, e, h1, h2, rfl, -⟩ := float_split x t h
  rw [List.append_assoc]
  exact mantissa_head y u e rest h1 h2 hr

theorem float_value (x : ℚ) (t : List Char) (h : Float x t) : floatOf t = x := by
  obtain ⟨y, u, e, h1, h2, rfl, rfl⟩ := float_split x t h
  exact mantissa_value y u e h1 h2

theorem float_first (x : ℚ) (t rest : List Char) (h : Float x t) : ∃ c ∈ (t ++ rest).head?, isDigit c = true := by
  obtain ⟨y, u, e, h1, -, rfl, -⟩ := float_split x t h
  rcases h1 with ⟨n, -, rfl⟩ | ⟨d, -, -, rfl⟩
  · rw [List.append_assoc]; exact showNat_first n _
  · rw [Tables.Dec.text, List.append_assoc, List.append_assoc]; exact showNat_first _ _

theorem float_nil (rest : List Char) (h : ∀ c ∈ rest.head?, isDigit c = false ∧ c ≠ '.') : floatRe rest = [] := by
  refine List.eq_nil_iff_forall_not_mem.2 fun ⟨z, t⟩ hm => ?_
  obtain ⟨x, r, y, h1, h2, -⟩ := cat_mem hm
  rw [star_none rest fun c hc => (h c hc).1] at h1
  simp only [List.mem_singleton, Prod.mk.injEq] at h1
  obtain ⟨rfl, rfl⟩ := h1
  obtain ⟨x', r', y', h3, h4, -⟩ := cat_mem h2
  rw [opt_none (chr_nil (dot_false fun hd => (h _ hd).2 rfl))] at h3
  simp only [List.mem_singleton, Prod.mk.injEq] at h3
  obtain ⟨rfl, rfl⟩ := h3
  rw [cat_nil_left (plus_nil fun c hc => (h c hc).1)] at h4
  cases h4

/-! ### Definitions -/

theorem group2_none (s : List Char) (h : alt (lit "log".toList) (lit "lin".toList) s = []) :
    (group (group (alt (lit "log".toList) (lit "lin".toList))) s).head? = some (some none, s) := by
  refine group_head ?_
  rw [group_none h]
  rfl

theorem def_first (ns : List (List Char)) (a : ℚ) (o : Option (ℚ × Option (List Char))) (s : List Char) (h : Def ns a o s) :
    ∃ m, first defRe s = some m ∧ regions m.region = regionsOf ns ∧ m.start.map floatOf = some a ∧ m.stop.map floatOf = o.map (·.1) ∧
      (o ≠ none → m.scale = o.bind (·.2)) := by
  have hcol : ∀ r, Stop (':' :: r) := by
    intro r c hc
    have : ':' = c := by simpa using hc
    subst this
    decide
  have hnil : Stop [] := by simp [Stop]
  have hc : ∀ r, (opt (chr (· == ':')) (':' :: r)).head? = some ([':'], r) := fun r => opt_head (by rw [chr_cons (by decide)]; rfl)
  have hc0 : (opt (chr (· == ':')) []).head? = some ([], []) := rfl
  have hs0 := group2_none [] (by decide)
  cases h with
  | fixed t hn ha =>
    obtain ⟨r, hr, hreg⟩ := region_head ns t hn (by simpa using float_first a t [] ha)
    refine ⟨⟨r, some t, none, none⟩, first_of (r := []) ?_, hreg, by simp [float_value a t ha], rfl, by simp⟩
    have hf := float_head a t [] ha hnil
    rw [List.append_nil] at hf
    refine bind_head hr (bind_head (group_head hf) (bind_head hc0 (bind_head (x := some none) (r := []) (group_head (bind_head (x := none)
      (r := []) ?_ (bind_head hc0 (ret_head _ _)))) (bind_head hs0 (ret_head _ _)))))
    rw [group_none (float_nil [] (by simp))]
    rfl
  | range t b u hn ha hb =>
    rw [List.append_assoc]
    obtain ⟨r, hr, hreg⟩ := region_head ns (t ++ ':' :: u) hn (float_first a t _ ha)
    refine ⟨⟨r, some t, some u, none⟩, first_of (r := []) ?_, hreg, by simp [float_value a t ha], by simp [float_value b u hb], by simp⟩
    have hf := float_head b u [] hb hnil
    rw [List.append_nil] at hf
    exact bind_head hr (bind_head (group_head (float_head a t _ ha (hcol u))) (bind_head (hc u) (bind_head (x := some (some u)) (r := [])
      (group_head (bind_head (group_head hf) (bind_head hc0 (ret_head _ _)))) (bind_head hs0 (ret_head _ _)))))
  | scaled t b u v hn ha hb hv =>
    rw [List.append_assoc, List.append_assoc, List.cons_append]
    obtain ⟨r, hr, hreg⟩ := region_head ns (t ++ ':' :: (u ++ ':' :: v)) hn (float_first a t _ ha)
    refine ⟨⟨r, some t, some u, some v⟩, first_of (r := []) ?_, hreg, by simp [float_value a t ha], by simp [float_value b u hb], by simp⟩
    have hvv : (group (group (alt (lit "log".toList) (lit "lin".toList))) v).head? = some (some (some v), []) := by
      rcases hv with rfl | rfl <;> decide
    exact bind_head hr (bind_head (group_head (float_head a t _ ha (hcol _))) (bind_head (hc _) (bind_head (x := some (some u)) (r := v)
      (group_head (bind_head (group_head (float_head b u _ hb (hcol v))) (bind_head (hc v) (ret_head _ _)))) (bind_head hvv (ret_head _ _)))))

/-! ### Repetitions and operations -/

theorem rep_first (ns : List (List Char)) (q : List Char) (hn : ∀ n ∈ ns, Name n) (hne : q ≠ []) (hq : ∀ c ∈ q, WordChar c) :
    ∃ o, first repRe (regionText ns ++ q) = some (o, q) ∧ regions o = regionsOf ns := by
  have hp : (bind (plus isWord) (fun x => bind eos fun _ => ret x) q).head? = some (q, []) := by
    have := plus_head (p := isWord) q [] hne (fun c hc => isWord_of (hq c hc)) (by simp)
    rw [List.append_nil] at this
    exact bind_head this (bind_head (x := []) (r := []) rfl (ret_head _ _))
  have hfin : ∀ o : Option (List Char), ((bind (plus isWord) fun x => bind eos fun _ => ret (o, x)) q).head? = some ((o, q), []) := by
    intro o
    have := plus_head (p := isWord) q [] hne (fun c hc => isWord_of (hq c hc)) (by simp)
    rw [List.append_nil] at this
    exact bind_head this (bind_head (x := []) (r := []) rfl (ret_head _ _))
  by_cases h : ns = []
  · subst h
    refine ⟨none, first_of (r := []) ?_, rfl⟩
    have hnone : regionRe q = [(none, q)] := by
      refine group_none (bind_nil fun x r hx => bind_nil fun y t hy => ?_)
      exfalso
      obtain ⟨c, rfl, rfl, hc⟩ := chr_mem hy
      have : c = ':' := by simpa using hc
      subst this
      -- the text has no colon
      have hsuf : ∀ (k : Nat) (s x r : List Char), (x, r) ∈ many itemRe k s → ∃ u, s = u ++ r := by
        intro k
        induction k with
        | zero =>
          intro s x r h
          simp only [many, List.mem_singleton, Prod.mk.injEq] at h
          exact ⟨[], by simp [h.2]⟩
        | succ k ih =>
          intro s x r h
          rcases List.mem_append.1 h with h | h
          · obtain ⟨⟨x1, r1⟩, h1, h2⟩ := List.mem_flatMap.1 h
            obtain ⟨⟨x2, r2⟩, h3, h4⟩ := List.mem_map.1 h2
            simp only [Prod.mk.injEq] at h4
            obtain ⟨-, rfl⟩ := h4
            obtain ⟨u, hu⟩ := ih _ _ _ h3
            obtain ⟨a, b, c, m1, m2, -⟩ := cat_mem h1
            obtain ⟨a', b', c', m3, m4, -⟩ := cat_mem m2
            obtain ⟨d, rfl, rfl, -⟩ := chr_mem m1
            obtain ⟨rfl, -⟩ := star_mem m3
            obtain ⟨d', rfl, rfl, -⟩ := chr_mem m4
            simp only at hu
            exact ⟨d :: (a' ++ d' :: u), by simp [hu]⟩
          · simp only [List.mem_singleton, Prod.mk.injEq] at h
            exact ⟨[], by simp [h.2]⟩
      obtain ⟨a, b, c, m1, m2, -⟩ := cat_mem hx
      obtain ⟨a', b', c', m3, m4, -⟩ := cat_mem m2
      obtain ⟨u, hu⟩ := hsuf _ _ _ _ m1
      obtain ⟨d, rfl, rfl, -⟩ := chr_mem m3
      obtain ⟨rfl, -⟩ := star_mem m4
      have := isWord_of (hq ':' (by rw [hu]; simp))
      rw [isWord_colon] at this
      cases this
    exact bind_head (x := none) (r := q) (by rw [regionText, List.nil_append, hnone]; rfl) (hfin none)
  · exact ⟨_, first_of (r := []) (bind_head (region_names ns q h hn) (hfin _)), by
      rw [regions, splitOn_names ns h hn, regionsOf, if_neg h]⟩

theorem flops_first (ns : List (List Char)) (n : Nat) (hn : ∀ n ∈ ns, Name n) :
    ∃ o, first flopsRe (regionText ns ++ showNat n) = some (o, showNat n) ∧ regions o = regionsOf ns := by
  obtain ⟨o, ho, hreg⟩ := region_head ns (showNat n) hn (by simpa using showNat_first n [])
  refine ⟨o, first_of (r := []) (bind_head ho ?_), hreg⟩
  have := plus_head (p := isDigit) (showNat n) [] (showNat_ne_nil n) (showNat_digits n) (by simp)
  rw [List.append_nil] at this
  exact bind_head this (bind_head (x := []) (r := []) rfl (ret_head _ _))

/-! ### Dictionaries -/

theorem lookup_upsert {α : Type} (k j : List Char) (v : α) (f : α → α) (d : List (List Char × α)) :
    (upsert k v f d).lookup j = if j = k then some (match d.lookup k with | some x => f x | none => v) else d.lookup j := by
  induction d with
  | nil =>
    by_cases h : j = k
    · subst h; simp [upsert]
    · have : (j == k) = false := by simpa using h
      simp [upsert, List.lookup, this, h]
  | cons p d ih =>
    obtain ⟨k', x⟩ := p
    rw [upsert]
    by_cases hk : k' = k
    · subst hk
      rw [if_pos rfl]
      by_cases h : j = k'
      · subst h; simp [List.lookup]
      · have : (j == k') = false := by simpa using h
        simp [List.lookup, this, h]
    · rw [if_neg hk]
      have hkk : (k == k') = false := by simpa using Ne.symm hk
      by_cases h : j = k'
      · subst h
        simp [List.lookup, hk]
      · have hj : (j == k') = false := by simpa using h
        simp only [List.lookup, hj, hkk, ih]

theorem lookup_loops (v : Stored) (rs : List (List Char)) (d : List (List Char × List Stored)) (r : List Char) :
    (rs.foldl (fun d r => upsert r [v] (· ++ [v]) d) d).lookup r =
      if r ∈ rs then some ((d.lookup r).getD [] ++ List.replicate (rs.count r) v) else d.lookup r := by
  induction rs generalizing d with
  | nil => simp
  | cons k rs ih =>
    rw [List.foldl_cons, ih, lookup_upsert]
    by_cases h : r = k
    · subst h
      rw [if_pos rfl, if_pos (List.mem_cons_self), List.count_cons_self, List.replicate_succ]
      by_cases h2 : r ∈ rs
      · rw [if_pos h2]
        cases d.lookup r <;> simp
      · rw [if_neg h2, List.count_eq_zero_of_not_mem h2]
        cases d.lookup r <;> simp
    · rw [if_neg h, List.count_cons_of_ne (Ne.symm h)]
      simp [h]

theorem lookup_reps (q : List Char) (rs : List (List Char)) (d : List (List Char × List Char)) (r : List Char) :
    (rs.foldl (fun d x => upsert x q (fun _ => q) d) d).lookup r = if r ∈ rs then some q else d.lookup r := by
  induction rs generalizing d with
  | nil => simp
  | cons k rs ih =>
    rw [List.foldl_cons, ih, lookup_upsert]
    by_cases h : r = k
    · subst h
      cases d.lookup r <;> simp
    · simp [h]

theorem lookup_append {α : Type} (d e : List (List Char × α)) (r : List Char) :
    (d ++ e).lookup r = (d.lookup r).or (e.lookup r) := by
  induction d with
  | nil => simp
  | cons p d ih =>
    obtain ⟨k, x⟩ := p
    by_cases h : r = k
    · subst h; simp [List.lookup]
    · have : (r == k) = false := by simpa using h
      simp [List.lookup, this, ih]

theorem lookup_none {α : Type} (d : List (List Char × α)) (r : List Char) : d.lookup r = none ↔ r ∉ d.map (·.1) := by
  induction d with
  | nil => simp
  | cons p d ih =>
    obtain ⟨k, x⟩ := p
    by_cases h : r = k
    · subst h; simp [List.lookup]
    · have : (r == k) = false := by simpa using h
      simp only [List.lookup, this, ih, List.map_cons, List.mem_cons, h, false_or]

theorem flopsAll_ok (n : Nat) (rs : List (List Char)) (d : List (List Char × Nat)) (hn : rs.Nodup) (hd : ∀ r ∈ rs, d.lookup r = none) :
    addFlopsAll n rs d = .ok (d ++ rs.map fun r => (r, n)) := by
  induction rs generalizing d with
  | nil => simp [addFlopsAll]
  | cons r rs ih =>
    rw [List.nodup_cons] at hn
    rw [addFlopsAll, if_neg ((lookup_none d r).1 (hd r List.mem_cons_self)), ih _ hn.2]
    · simp
    · intro x hx
      rw [lookup_append, hd x (List.mem_cons_of_mem _ hx)]
      have : (x == r) = false := by
        have : x ≠ r := fun h => hn.1 (h ▸ hx)
        simpa using this
      simp [List.lookup, this]

theorem flopsAll_error (n : Nat) (rs : List (List Char)) (d : List (List Char × Nat)) (h : ¬ (rs.Nodup ∧ ∀ r ∈ rs, d.lookup r = none)) :
    addFlopsAll n rs d = .error "Exception" := by
  induction rs generalizing d with
  | nil => simp at h
  | cons r rs ih =>
    rw [addFlopsAll]
    split
    · rfl
    · rename_i hr
      refine ih _ fun hh => h ⟨List.nodup_cons.2 ⟨fun hm => ?_, hh.1⟩, fun x hx => ?_⟩
      · have := hh.2 r hm
        rw [lookup_append, (lookup_none d r).2 hr] at this
        simp [List.lookup] at this
      · rcases List.mem_cons.1 hx with rfl | hx
        · exact (lookup_none d x).2 hr
        · have := hh.2 x hx
          rw [lookup_append, Option.or_eq_none_iff] at this
          exact this.1

theorem lookup_const (n : Nat) (rs : List (List Char)) (r : List Char) :
    (rs.map fun r => (r, n)).lookup r = if r ∈ rs then some n else none := by
  induction rs with
  | nil => simp
  | cons k rs ih =>
    by_cases h : r = k
    · subst h; simp
    · have : (r == k) = false := by simpa using h
      simp [List.lookup, this, ih, h]

end Verif.Pheno
