import Verif.Model.Analyzer
import Verif.Spec.Tables
import Verif.Lemmas.UnitText
import Verif.Lemmas.Topology

/-! Lemmas about the readers of external analysers. -/

namespace Verif.Analyzer

open Verif.Text Verif.Units Verif.Likwid Verif.Tables
open Verif.Topology (dropWhile_all takeWhile_all head_dropWhile head_takeWhile blanks_space)

theorem after_append (p r : List Char) : after p (p ++ r) = some r := by
  simp [after]

theorem after_none (p s : List Char) (h : ¬ p <+: s) : after p s = none := by
  rw [after, if_neg (by simpa using h)]

/-- A search finds the first place where the text begins as required, if it is accepted there. -/
theorem searchWith_first {α : Type} (f : List Char → Option α) (p s : List Char) (i : Nat) (x : α)
    (hf : ∀ t, ¬ p <+: t → f t = none) (hi : First p s i) (h : f (s.drop i) = some x) : searchWith f s = some x := by
  induction s generalizing i with
  | nil =>
    simp only [List.drop_nil] at h
    simpa [searchWith] using h
  | cons c cs ih =>
    cases i with
    | zero =>
      simp only [List.drop_zero] at h
      simp only [searchWith, h]
    | succ i =>
      have h0 : ¬ p <+: c :: cs := by simpa using hi.2 0 (by omega)
      simp only [searchWith, hf _ h0]
      exact ih i ⟨by simpa using hi.1, fun j hj => by simpa using hi.2 (j + 1) (by omega)⟩ (by simpa using h)

theorem parseDec_text (d : Dec) : parseDec d.text = some d.value := by
  have h1 := takeWhile_digits (showNat d.whole) ('.' :: d.frac.map digitChar) (showNat_digits _) (by
    intro c hc
    simp only [List.head?_cons, Option.some.injEq] at hc
    subst hc
    decide)
  unfold parseDec Dec.text
  simp only [h1.1, h1.2, if_neg (showNat_ne_nil _)]
  rw [if_pos, natOf_showNat, natOf_map _ d.small, List.length_map, Dec.value]
  · have := foldl_reverse_digits d.frac.reverse
    rw [List.reverse_reverse] at this
    rw [this]
  · rw [List.all_eq_true]
    intro c hc
    obtain ⟨x, hx, rfl⟩ := List.mem_map.1 hc
    exact digitChar_isDigit x (d.small x hx)

theorem text_ne_dash (d : Dec) : d.text ≠ ['-'] := by
  intro h
  have := parseDec_text d
  rw [h] at this
  have h0 : parseDec ['-'] = none := by decide
  rw [h0] at this
  cases this

theorem text_space (d : Dec) : ∀ c ∈ d.text, isSpace c = false := by
  intro c hc
  rcases List.mem_append.1 hc with hc | hc
  · exact isDigit_not_space c (showNat_digits _ c hc)
  · rcases List.mem_cons.1 hc with rfl | hc
    · decide
    · obtain ⟨x, hx, rfl⟩ := List.mem_map.1 hc
      exact isDigit_not_space _ (digitChar_isDigit x (d.small x hx))

theorem text_ne_nil (d : Dec) : d.text ≠ [] := by simp [Dec.text]

/-- The value of a cell. -/
theorem cell_value (o : Option Dec) : (if cellText o = ['-'] then some 0 else parseDec (cellText o)) = some (cellValue o) := by
  cases o with
  | none => rfl
  | some d =>
    rw [if_neg (show ¬ cellText (some d) = ['-'] from text_ne_dash d)]
    exact parseDec_text d

theorem words_blanks (a s : List Char) (ha : Blanks a) : words (a ++ s) = words s := by
  unfold words
  induction a with
  | nil => rfl
  | cons c a ih =>
    have hc : isSpace c = true := blanks_space ha c (by simp)
    rw [List.cons_append, wordsAux, if_pos hc, if_pos rfl]
    exact ih fun x hx => ha x (by simp [hx])

theorem words_spaced (ws : List (List Char)) (l : List Char) (h : Spaced ws l) : words l = ws := by
  induction h with
  | nil a ha => have := words_blanks a [] ha; rw [List.append_nil] at this; exact this
  | cons a w ws rest ha hw hs h hr ih =>
    rw [List.append_assoc, words_blanks a _ ha]
    rcases hr with rfl | hr
    · rw [List.append_nil, words_single w hw hs, ← ih]; rfl
    · cases rest with
      | nil => cases hr
      | cons c cs =>
        simp only [List.head?_cons, Option.some.injEq] at hr
        subst hr
        rw [words_cons w cs hw hs, ← ih]
        exact congrArg _ (words_blanks [' '] cs (by simp [Blanks])).symm

theorem matchNumber_of (key a post : List Char) (n : Nat) (ha : Blanks a) (hne : a ≠ []) (hp : ∀ c ∈ post.head?, isDigit c = false) :
    matchNumber key (key ++ a ++ showNat n ++ post) = some n := by
  rw [List.append_assoc, List.append_assoc, matchNumber, after_append]
  simp only
  have hd : ∀ x ∈ (showNat n ++ post).head?, isSpace x = false := by
    intro x hx
    cases hs : showNat n with
    | nil => exact absurd hs (showNat_ne_nil n)
    | cons y ys =>
      rw [hs] at hx
      have : y = x := by simpa using hx
      exact Topology.showNat_head n x (by rw [hs]; simp [this])
  rw [dropWhile_all _ a _ (blanks_space ha), head_dropWhile _ _ hd, takeWhile_all _ a _ (blanks_space ha),
    takeWhile_all _ (showNat n) _ (showNat_digits n), head_takeWhile _ _ hp, List.append_nil, natOf_showNat, if_neg]
  simp [hne, showNat_ne_nil n]

theorem number_of (key : String) (n : Nat) (s : List Char) (h : HasNumber key.toList n s) : number key s = .ok n := by
  obtain ⟨i, a, post, ha, hne, hp, hf, he⟩ := h
  rw [number, searchWith_first (matchNumber key.toList) key.toList s i n (fun t ht => by rw [matchNumber, after_none _ _ ht]) hf (by
    rw [he]; exact matchNumber_of _ a post n ha hne hp)]

/-! ### Dictionaries -/

theorem lookup_set {α : Type} (d : List (List Char × α)) (k j : List Char) (v : α) :
    (set d k v).lookup j = if j = k then some v else d.lookup j := by
  unfold set
  split
  · rename_i h
    induction d with
    | nil => simp at h
    | cons e d ih =>
      obtain ⟨a, b⟩ := e
      by_cases ha : a = k
      · subst ha
        simp only [List.map_cons, if_true, List.lookup_cons]
        by_cases hj : j = a
        · subst hj; simp
        · simp only [if_neg hj, beq_eq_false_iff_ne.2 hj]
          clear ih h
          induction d with
          | nil => rfl
          | cons e d ih =>
            obtain ⟨x, y⟩ := e
            by_cases hx : x = a
            · subst hx
              simp only [List.map_cons, if_true, List.lookup_cons, beq_eq_false_iff_ne.2 hj]
              exact ih
            · simp only [List.map_cons, if_neg hx, List.lookup_cons]
              split
              · rfl
              · exact ih
      · have h' : d.any (fun e => e.1 == k) = true := by simpa [ha] using h
        simp only [List.map_cons, if_neg ha, List.lookup_cons, ih h']
        by_cases hj : j = k
        · subst hj; simp [beq_eq_false_iff_ne.2 (Ne.symm ha)]
        · simp [if_neg hj]
  · rename_i h
    induction d with
    | nil =>
      by_cases hj : j = k
      · subst hj; simp
      · simp [hj]
    | cons e d ih =>
      obtain ⟨a, b⟩ := e
      have ha : ¬ a = k := fun ha => h (by simp [ha])
      have h' : ¬ d.any (fun e => e.1 == k) = true := fun h' => h (by simp only [List.any_cons, h', Bool.or_true])
      simp only [List.cons_append, List.lookup_cons, ih h']
      by_cases hj : j = k
      · subst hj; simp [beq_eq_false_iff_ne.2 (Ne.symm ha)]
      · simp [if_neg hj]

theorem keys_set {α : Type} (d : List (List Char × α)) (k : List Char) (v : α) :
    (set d k v).map (·.1) = if k ∈ d.map (·.1) then d.map (·.1) else d.map (·.1) ++ [k] := by
  have hiff : d.any (fun e => e.1 == k) = true ↔ k ∈ d.map (·.1) := by simp
  unfold set
  split
  · rename_i h
    rw [if_pos (hiff.1 h), List.map_map]
    refine List.map_congr_left fun e _ => ?_
    by_cases he : e.1 = k <;> simp [he]
  · rename_i h
    rw [if_neg (fun hk => h (hiff.2 hk))]
    simp

theorem lookup_foldl_set {α : Type} (es d : List (List Char × α)) (hn : (es.map (·.1)).Nodup)
    (hd : ∀ e ∈ es, e.1 ∉ d.map (·.1)) : es.foldl (fun d e => set d e.1 e.2) d = d ++ es := by
  induction es generalizing d with
  | nil => simp
  | cons e es ih =>
    simp only [List.map_cons, List.nodup_cons] at hn
    have he : set d e.1 e.2 = d ++ [e] := by
      unfold set
      rw [if_neg]
      intro h
      exact hd e (by simp) (by simpa using h)
    rw [List.foldl_cons, he, ih _ hn.2 ?_]
    · simp
    · intro x hx hm
      rw [List.map_append, List.mem_append] at hm
      rcases hm with hm | hm
      · exact hd x (by simp [hx]) hm
      · simp only [List.map_cons, List.map_nil, List.mem_singleton] at hm
        exact hn.1 (List.mem_map.2 ⟨x, hx, hm⟩)

/-! ### Resources -/

theorem isIdx_of (r : Resource) (hp : r.Plain) : ∀ c ∈ r.index, isIdx c = true := by
  intro c hc
  rcases hp.index c hc with h | h
  · simp [isIdx, h]
  · simp [isIdx, h]

theorem isName_of (r : Resource) (hp : r.Plain) : ∀ c ∈ r.name, isName c = true := by
  intro c hc
  rcases hp.name c hc with h | h | h <;> simp [isName, h]

theorem isName_not_space (c : Char) (h : isName c = true) : isSpace c = false := by
  by_contra hs
  simp only [Bool.not_eq_false] at hs
  simp only [isSpace, Bool.or_eq_true, decide_eq_true_eq] at hs
  rcases hs with ((((((((hs | hs) | hs) | hs) | hs) | hs) | hs) | hs) | hs) | hs <;> subst hs <;> revert h <;> decide

theorem matchRes_line (r : Resource) (hp : r.Plain) (a b rest : List Char) (ha : Blanks a) (hane : a ≠ []) (hb : Blanks b) (hbne : b ≠ [])
    (hr : ∀ c ∈ rest.head?, isName c = false) :
    matchRes (r.key ++ a ++ ['-'] ++ b ++ r.name ++ rest) =
      some (r.key, r.name, (r.key ++ a ++ ['-'] ++ b ++ r.name).length) := by
  have e : r.key ++ a ++ ['-'] ++ b ++ r.name ++ rest = '[' :: (r.index ++ (']' :: (a ++ ('-' :: (b ++ (r.name ++ rest)))))) := by
    simp [Resource.key]
  have h1 : ∀ x ∈ (']' :: (a ++ ('-' :: (b ++ (r.name ++ rest))))).head?, isIdx x = false := by
    intro x hx
    have : ']' = x := by simpa using hx
    subst this; decide
  have h2 : ∀ x ∈ ('-' :: (b ++ (r.name ++ rest))).head?, isSpace x = false := by
    intro x hx
    have : '-' = x := by simpa using hx
    subst this; decide
  have h3 : ∀ x ∈ (r.name ++ rest).head?, isSpace x = false := by
    intro x hx
    cases hn : r.name with
    | nil => exact absurd hn hp.name_ne
    | cons y ys =>
      rw [hn] at hx
      have : y = x := by simpa using hx
      exact isName_not_space x (isName_of r hp x (by rw [hn]; simp [this]))
  rw [e]
  simp only [matchRes]
  simp only [dropWhile_all _ r.index _ (isIdx_of r hp), head_dropWhile _ _ h1, dropWhile_all _ a _ (blanks_space ha), head_dropWhile _ _ h2,
    takeWhile_all _ r.index _ (isIdx_of r hp), head_takeWhile _ _ h1, takeWhile_all _ a _ (blanks_space ha), head_takeWhile _ _ h2,
    takeWhile_all _ b _ (blanks_space hb), head_takeWhile _ _ h3, dropWhile_all _ b _ (blanks_space hb), head_dropWhile _ _ h3,
    takeWhile_all _ r.name _ (isName_of r hp), head_takeWhile _ _ hr, List.append_nil]
  rw [if_neg (by simp [hp.index_ne, hane, hbne, hp.name_ne])]
  simp [Resource.key]
  omega

theorem findRes_skip (a rest : List Char) : findRes a.length (a ++ rest) = findRes 0 rest := by
  induction a with
  | nil => rfl
  | cons c a ih => simpa [findRes] using ih

/-- Characters that cannot begin an entry. -/
theorem findRes_plain (a rest : List Char) (h : '[' ∉ a) : findRes 0 (a ++ rest) = findRes 0 rest := by
  induction a with
  | nil => rfl
  | cons c a ih =>
    have hc : c ≠ '[' := fun e => h (by simp [e])
    have : matchRes (c :: (a ++ rest)) = none := by
      unfold matchRes
      split
      · rename_i s e
        simp only [List.cons.injEq] at e
        exact absurd e.1 hc
      · rfl
    rw [List.cons_append, findRes, this]
    exact ih fun hm => h (by simp [hm])

theorem findRes_line (r : Resource) (hp : r.Plain) (l rest : List Char) (hl : ResourceLine r l) :
    findRes 0 (l ++ '\n' :: rest) = (r.key, r.name) :: findRes 0 rest := by
  obtain ⟨a, b, c, ha, hane, hb, hbne, hc, rfl⟩ := hl
  rw [List.append_assoc]
  have hm := matchRes_line r hp a b (c ++ '\n' :: rest) ha hane hb hbne (by
    intro x hx
    cases c with
    | nil =>
      have : '\n' = x := by simpa using hx
      subst this; decide
    | cons y ys =>
      have : y = x := by simpa using hx
      subst this
      rcases hc y (by simp) with rfl | rfl <;> decide)
  have hfind : findRes 0 ((r.key ++ a ++ ['-'] ++ b ++ r.name) ++ (c ++ '\n' :: rest)) = (r.key, r.name) :: findRes 0 (c ++ '\n' :: rest) := by
    generalize hw : r.key ++ a ++ ['-'] ++ b ++ r.name = w at hm ⊢
    cases w with
    | nil => simp [Resource.key] at hw
    | cons x w =>
      rw [List.cons_append] at hm ⊢
      simp only [findRes, hm]
      simp only [List.length_cons, Nat.add_sub_cancel]
      rw [findRes_skip]
  rw [hfind]
  have : c ++ '\n' :: rest = (c ++ ['\n']) ++ rest := by simp
  rw [this, findRes_plain _ _ (by
    intro hm
    rcases List.mem_append.1 hm with hm | hm
    · rcases hc _ hm with e | e <;> cases e
    · simp at hm)]

theorem findRes_lines (rs : List Resource) (ls : List (List Char)) (hp : ∀ r ∈ rs, r.Plain) (h : List.Forall₂ ResourceLine rs ls) :
    findRes 0 (ls.flatMap (· ++ ['\n'])) = rs.map fun r => (r.key, r.name) := by
  induction h with
  | nil => rfl
  | @cons r l rs ls hl h ih =>
    rw [List.flatMap_cons, List.append_assoc, List.singleton_append, findRes_line r (hp r (by simp)) l _ hl,
      ih fun x hx => hp x (by simp [hx])]
    rfl

theorem resourceLine_nl (r : Resource) (hp : r.Plain) (l : List Char) (h : ResourceLine r l) : '\n' ∉ l ∧ l ≠ [] := by
  obtain ⟨a, b, c, ha, hane, hb, hbne, hc, rfl⟩ := h
  refine ⟨?_, by simp [Resource.key]⟩
  intro hm
  simp only [Resource.key, List.mem_append, List.mem_cons, List.not_mem_nil, or_false] at hm
  rcases hm with ((((((hm | hm) | hm) | hm) | hm) | hm) | hm) | hm
  · exact absurd hm (by decide)
  · have := isIdx_of r hp _ hm
    revert this; decide
  · exact absurd hm (by decide)
  · exact Topology.blanks_nl ha hm
  · exact absurd hm (by decide)
  · exact Topology.blanks_nl hb hm
  · have := isName_of r hp _ hm
    revert this; decide
  · exact Topology.blanks_nl hc hm

theorem splitNl_flatMap (ls : List (List Char)) (rest : List Char) (h : ∀ l ∈ ls, '\n' ∉ l) :
    splitNl (ls.flatMap (· ++ ['\n']) ++ rest) = ls ++ splitNl rest := by
  induction ls with
  | nil => rfl
  | cons l ls ih =>
    rw [List.flatMap_cons, List.append_assoc, List.append_assoc, List.singleton_append, splitNl_append,
      splitNl_line l (h l (by simp)), ih fun x hx => h x (by simp [hx])]
    rfl

theorem section_of (rs : List Resource) (hp : ∀ r ∈ rs, r.Plain) (hne : rs ≠ []) (s : List Char) (h : Resources rs s) :
    ∃ x, searchWith matchSection s = some x ∧ findRes 0 x = rs.map fun r => (r.key, r.name) := by
  obtain ⟨i, ls, post, hf, hl, he⟩ := h
  have hnl : ∀ l ∈ ls, '\n' ∉ l ∧ l ≠ [] := by
    clear he hf hne
    induction hl with
    | nil => simp
    | @cons r l rs ls hrl h ih =>
      intro x hx
      rcases List.mem_cons.1 hx with rfl | hx
      · exact resourceLine_nl r (hp r (by simp)) x hrl
      · exact ih (fun y hy => hp y (by simp [hy])) x hx
  have hls : ls ≠ [] := by
    rintro rfl
    cases hl
    exact hne rfl
  refine ⟨ls.flatMap (· ++ ['\n']), searchWith_first matchSection "Resources:\n".toList s i _
    (fun t ht => by rw [matchSection, after_none _ _ ht]) hf ?_, findRes_lines rs ls hp hl⟩
  rw [he, List.append_assoc, matchSection, after_append]
  simp only
  have e : (splitNl (ls.flatMap (· ++ ['\n']) ++ '\n' :: post)).dropLast.takeWhile (· ≠ []) = ls := by
    rw [splitNl_flatMap ls _ fun l hl => (hnl l hl).1]
    have : splitNl ('\n' :: post) = [] :: splitNl post := by simp [splitNl]
    rw [this, List.dropLast_append_of_ne_nil (by simp), List.dropLast_cons_of_ne_nil (splitNl_ne_nil _),
      takeWhile_all _ ls _ (fun l hl => by simpa using (hnl l hl).2)]
    simp
  rw [e, if_neg hls]

theorem pressure_of (cols : List (Resource × Option Dec)) (hne : cols ≠ []) (s : List Char) (h : Pressure cols s) :
    ∃ a b, searchWith matchPressure s = some (a, b) ∧ words a = cols.map (·.1.key) ∧ words b = cols.map fun c => cellText c.2 := by
  obtain ⟨i, a, b, post, hf, ha, hb, hna, hnb, he⟩ := h
  refine ⟨a, b, searchWith_first matchPressure "Resource pressure per iteration:\n".toList s i _
    (fun t ht => by rw [matchPressure, after_none _ _ ht]) hf ?_, words_spaced _ _ ha, words_spaced _ _ hb⟩
  have ha' : a ≠ [] := by
    rintro rfl
    have := words_spaced _ _ ha
    exact hne (by simpa [words, wordsAux] using this.symm)
  have hb' : b ≠ [] := by
    rintro rfl
    have := words_spaced _ _ hb
    exact hne (by simpa [words, wordsAux] using this.symm)
  rw [he, List.append_assoc, List.append_assoc, matchPressure, after_append]
  simp only [List.cons_append]
  rw [splitNl_append, splitNl_line a hna, splitNl_append, splitNl_line b hnb]
  simp [ha', hb']

/-! ### Ports -/

/-- What the dictionary holds after some columns: the greatest value of each name, in the order of first appearance. -/
structure Holds (done : List (Resource × Option Dec)) (d : List (List Char × ℚ)) : Prop where
  upper : ∀ c ∈ done, ∃ v, d.lookup c.1.name = some v ∧ cellValue c.2 ≤ v
  attained : ∀ n v, d.lookup n = some v → ∃ c ∈ done, c.1.name = n ∧ cellValue c.2 = v

theorem ports_fold (names : List (List Char × List Char)) (todo done : List (Resource × Option Dec)) (d : List (List Char × ℚ))
    (hn : ∀ c ∈ todo, names.lookup c.1.key = some c.1.name) (h : Holds done d) :
    ∃ d', (todo.map fun c => (c.1.key, cellText c.2)).foldlM (stepPort names) d = .ok d' ∧ Holds (done ++ todo) d' := by
  induction todo generalizing done d with
  | nil => exact ⟨d, rfl, by simpa using h⟩
  | cons c todo ih =>
    have hstep : ∃ d1, stepPort names d (c.1.key, cellText c.2) = .ok d1 ∧ Holds (done ++ [c]) d1 := by
      simp only [stepPort, hn c (by simp), cell_value]
      cases hl : d.lookup c.1.name with
      | some w =>
        refine ⟨_, rfl, ?_, ?_⟩
        · intro x hx
          rw [lookup_set]
          rcases List.mem_append.1 hx with hx | hx
          · obtain ⟨v, hv, hle⟩ := h.upper x hx
            by_cases he : x.1.name = c.1.name
            · rw [if_pos he]
              refine ⟨_, rfl, ?_⟩
              rw [he, hl, Option.some.injEq] at hv
              exact le_trans (hv ▸ hle) (le_max_right _ _)
            · rw [if_neg he]
              exact ⟨v, hv, hle⟩
          · simp only [List.mem_singleton] at hx
            subst hx
            rw [if_pos rfl]
            exact ⟨_, rfl, le_max_left _ _⟩
        · intro n v hv
          rw [lookup_set] at hv
          by_cases he : n = c.1.name
          · rw [if_pos he, Option.some.injEq] at hv
            rcases max_choice (cellValue c.2) w with e | e
            · exact ⟨c, by simp, he.symm, by rw [← hv, e]⟩
            · obtain ⟨x, hx, e1, e2⟩ := h.attained _ _ hl
              exact ⟨x, by simp [hx], by rw [e1, he], by rw [← hv, e, e2]⟩
          · rw [if_neg he] at hv
            obtain ⟨x, hx, e1, e2⟩ := h.attained _ _ hv
            exact ⟨x, by simp [hx], e1, e2⟩
      | none =>
        refine ⟨_, rfl, ?_, ?_⟩
        · intro x hx
          rw [lookup_set]
          rcases List.mem_append.1 hx with hx | hx
          · obtain ⟨v, hv, hle⟩ := h.upper x hx
            by_cases he : x.1.name = c.1.name
            · rw [he, hl] at hv; cases hv
            · rw [if_neg he]
              exact ⟨v, hv, hle⟩
          · simp only [List.mem_singleton] at hx
            subst hx
            rw [if_pos rfl]
            exact ⟨_, rfl, le_refl _⟩
        · intro n v hv
          rw [lookup_set] at hv
          by_cases he : n = c.1.name
          · rw [if_pos he, Option.some.injEq] at hv
            exact ⟨c, by simp, he.symm, hv⟩
          · rw [if_neg he] at hv
            obtain ⟨x, hx, e1, e2⟩ := h.attained _ _ hv
            exact ⟨x, by simp [hx], e1, e2⟩
    obtain ⟨d1, h1, h2⟩ := hstep
    obtain ⟨d', h3, h4⟩ := ih (done ++ [c]) d1 (fun x hx => hn x (by simp [hx])) h2
    refine ⟨d', ?_, by simpa using h4⟩
    rw [List.map_cons, List.foldlM_cons, h1]
    exact h3

/-! ### Timeline -/

theorem indexOf_first (c : Char) (a b : List Char) (h : c ∉ a) : indexOf c (a ++ c :: b) = .ok a.length := by
  rw [indexOf, if_pos (by simp), takeWhile_all _ a _ (by
    intro x hx
    simp only [decide_eq_true_eq, ne_eq]
    rintro rfl
    exact h hx)]
  simp

theorem row_start (k : Nat) (pad : List Char) (hp : ∀ c ∈ pad, c = ' ' ∨ c = '.') (x : Char) (hx : isDigit x = false)
    (h1 : x ∉ ['[', '0', ',', ']', ' ', '.']) : x ∉ "[0,".toList ++ showNat k ++ [']'] ++ pad := by
  intro h
  simp only [List.mem_append] at h
  rcases h with ((h | h) | h) | h
  · exact h1 (by
      have : x ∈ ['[', '0', ','] := h
      simp only [List.mem_cons, List.not_mem_nil, or_false] at this ⊢
      tauto)
  · exact Topology.showNat_no k x hx h
  · exact h1 (by simp only [List.mem_singleton] at h; simp [h])
  · exact h1 (by rcases hp x h with e | e <;> simp [e])

theorem row_step (d r : Nat) (l : List Char) (h : Row d r l) (acc : Option Nat × Nat) :
    isRow l = true ∧ stepRow acc l = .ok (some (match acc.1 with | some s => min d s | none => d), max r acc.2) := by
  obtain ⟨k, pad, mid, tail, hp, hm, rfl, rfl, rfl⟩ := h
  constructor
  · have hd : ∀ x ∈ (']' :: (pad ++ 'D' :: mid ++ 'R' :: tail)).head?, isDigit x = false := by
      intro x hx
      have : ']' = x := by simpa using hx
      subst this; decide
    have e : "[0,".toList ++ showNat k ++ [']'] ++ pad ++ 'D' :: mid ++ 'R' :: tail =
        '[' :: '0' :: ',' :: (showNat k ++ (']' :: (pad ++ 'D' :: mid ++ 'R' :: tail))) := by
      simp
    rw [e]
    have e1 : ('0' :: ',' :: (showNat k ++ (']' :: (pad ++ 'D' :: mid ++ 'R' :: tail)))).dropWhile isDigit =
        ',' :: (showNat k ++ (']' :: (pad ++ 'D' :: mid ++ 'R' :: tail))) := by
      rw [List.dropWhile_cons_of_pos (by decide), List.dropWhile_cons_of_neg (by decide)]
    have e2 : ('0' :: ',' :: (showNat k ++ (']' :: (pad ++ 'D' :: mid ++ 'R' :: tail)))).takeWhile isDigit = ['0'] := by
      rw [List.takeWhile_cons_of_pos (by decide), List.takeWhile_cons_of_neg (by decide)]
    simp only [isRow, e1, e2, dropWhile_all _ _ _ (showNat_digits k), head_dropWhile _ _ hd, takeWhile_all _ _ _ (showNat_digits k),
      head_takeWhile _ _ hd, List.append_nil]
    simp [showNat_ne_nil k]
  · have hD := row_start k pad hp 'D' (by decide) (by decide)
    have hR := row_start k pad hp 'R' (by decide) (by decide)
    generalize hw : "[0,".toList ++ showNat k ++ [']'] ++ pad = w at hD hR ⊢
    have hpre : "[0,".toList.isPrefixOf (w ++ 'D' :: mid ++ 'R' :: tail) = true := by
      rw [List.isPrefixOf_iff_prefix, ← hw]
      simp only [List.append_assoc]
      exact List.prefix_append _ _
    have i1 : indexOf 'D' (w ++ 'D' :: mid ++ 'R' :: tail) = .ok w.length := by
      rw [List.append_assoc]
      exact indexOf_first 'D' w _ hD
    have i2 : indexOf 'R' (w ++ 'D' :: mid ++ 'R' :: tail) = .ok (w.length + 1 + mid.length) := by
      rw [indexOf_first 'R' (w ++ 'D' :: mid) tail]
      · simp; omega
      · intro h
        rcases List.mem_append.1 h with h | h
        · exact hR h
        · rcases List.mem_cons.1 h with h | h
          · cases h
          · rcases hm _ h with e | e | e | e <;> cases e
    rw [stepRow, if_pos hpre, i1, i2]
    rfl

theorem stepRow_other (acc : Option Nat × Nat) (l : List Char) (h : ¬ "[0,".toList <+: l) : stepRow acc l = .ok acc := by
  rw [stepRow, if_neg (by rwa [List.isPrefixOf_iff_prefix])]

/-- The rows seen so far. -/
structure Extent (rows : List (Nat × Nat)) (acc : Option Nat × Nat) : Prop where
  start : ∀ x ∈ rows, ∃ s, acc.1 = some s ∧ s ≤ x.1
  startAt : ∀ s, acc.1 = some s → ∃ x ∈ rows, x.1 = s
  stop : ∀ x ∈ rows, x.2 ≤ acc.2
  stopAt : rows ≠ [] → ∃ x ∈ rows, x.2 = acc.2
  initial : rows = [] → acc.2 = 0

theorem timeline_fold (ls : List (List Char)) (rows : List (Nat × Nat)) (h : Timeline ls rows) (done : List (Nat × Nat))
    (acc : Option Nat × Nat) (hd : Extent done acc) :
    ∃ acc', (ls.filter isRow).foldlM stepRow acc = .ok acc' ∧ Extent (done ++ rows) acc' := by
  induction h generalizing done acc with
  | nil => exact ⟨acc, rfl, by simpa using hd⟩
  | other l ls rows ho h ih =>
    obtain ⟨acc', h1, h2⟩ := ih done acc hd
    refine ⟨acc', ?_, h2⟩
    rw [List.filter_cons]
    split
    · rw [List.foldlM_cons, stepRow_other acc l ho]
      exact h1
    · exact h1
  | row d r l ls rows hr h ih =>
    obtain ⟨h1, h2⟩ := row_step d r l hr acc
    have hnew : Extent (done ++ [(d, r)]) (some (match acc.1 with | some s => min d s | none => d), max r acc.2) := by
      refine ⟨?_, ?_, ?_, ?_, by simp⟩
      · intro x hx
        refine ⟨_, rfl, ?_⟩
        rcases List.mem_append.1 hx with hx | hx
        · obtain ⟨s, hs, hle⟩ := hd.start x hx
          rw [hs]
          exact le_trans (min_le_right _ _) hle
        · simp only [List.mem_singleton] at hx
          subst hx
          split
          · exact min_le_left _ _
          · exact le_refl _
      · intro s hs
        simp only [Option.some.injEq] at hs
        cases ha : acc.1 with
        | none => rw [ha] at hs; exact ⟨(d, r), by simp, hs⟩
        | some s0 =>
          rw [ha] at hs
          simp only at hs
          rcases min_choice d s0 with e | e
          · exact ⟨(d, r), by simp, by rw [← hs, e]⟩
          · obtain ⟨x, hx, hxe⟩ := hd.startAt s0 ha
            exact ⟨x, by simp [hx], by rw [hxe, ← hs, e]⟩
      · intro x hx
        rcases List.mem_append.1 hx with hx | hx
        · exact le_trans (hd.stop x hx) (le_max_right _ _)
        · simp only [List.mem_singleton] at hx
          subst hx
          exact le_max_left _ _
      · intro _
        rcases le_total r acc.2 with hle | hle
        · by_cases hdone : done = []
          · subst hdone
            have h0 := hd.initial rfl
            exact ⟨(d, r), by simp, by simp [h0]⟩
          · obtain ⟨x, hx, hxe⟩ := hd.stopAt hdone
            exact ⟨x, by simp [hx], by rw [hxe, max_eq_right hle]⟩
        · exact ⟨(d, r), by simp, by rw [max_eq_left hle]⟩
    obtain ⟨acc', h3, h4⟩ := ih _ _ hnew
    refine ⟨acc', ?_, by simpa using h4⟩
    rw [List.filter_cons, if_pos h1, List.foldlM_cons, h2]
    exact h3

/-! ### IACA -/

theorem splitOn_line (c : Char) (l : List Char) (h : c ∉ l) : splitOn c l = [l] := by
  induction l with
  | nil => rfl
  | cons x l ih =>
    have hx : x ≠ c := fun e => h (by simp [e])
    rw [splitOn, if_neg hx, ih fun hm => h (by simp [hm])]

theorem splitOn_append (c : Char) (a b : List Char) (h : c ∉ a) : splitOn c (a ++ c :: b) = a :: splitOn c b := by
  induction a with
  | nil => simp [splitOn]
  | cons x a ih =>
    have hx : x ≠ c := fun e => h (by simp [e])
    rw [List.cons_append, splitOn, if_neg hx, ih fun hm => h (by simp [hm])]

theorem splitOn_cells (cs : List (List Char)) (h : ∀ c ∈ cs, '|' ∉ c) : splitOn '|' (cs.flatMap (· ++ ['|'])) = cs ++ [[]] := by
  induction cs with
  | nil => rfl
  | cons c cs ih =>
    rw [List.flatMap_cons, List.append_assoc, List.singleton_append, splitOn_append '|' c _ (h c (by simp)),
      ih fun x hx => h x (by simp [hx])]
    rfl

theorem find_firstLine (head l s : List Char) (h : FirstLine head l s) : (splitNl s).find? (fun l => head.isPrefixOf l) = some l := by
  obtain ⟨i, h1, h2, h3⟩ := h
  rw [List.find?_eq_some_iff_getElem]
  refine ⟨by rwa [List.isPrefixOf_iff_prefix], i, ?_⟩
  obtain ⟨hi, he⟩ := List.getElem?_eq_some_iff.1 h1
  refine ⟨hi, he, fun j hj => ?_⟩
  have := h3 j hj _ (List.getElem?_eq_getElem (by omega))
  rw [Bool.not_eq_true_eq_eq_false]
  rw [← List.isPrefixOf_iff_prefix] at this
  exact Bool.eq_false_iff.2 this

theorem findSome_firstLine {α : Type} (f : List Char → Option α) (head l s : List Char) (h : FirstLine head l s) (x : α)
    (hf : ∀ t, ¬ head <+: t → f t = none) (hx : f l = some x) : (splitNl s).findSome? f = some x := by
  obtain ⟨i, h1, -, h3⟩ := h
  generalize splitNl s = ls at h1 h3
  induction ls generalizing i with
  | nil => simp at h1
  | cons y ls ih =>
    cases i with
    | zero =>
      simp only [List.getElem?_cons_zero, Option.some.injEq] at h1
      subst h1
      simp [hx]
    | succ i =>
      rw [List.findSome?_cons, hf y (h3 0 (by omega) y (by simp))]
      exact ih i (by simpa using h1) fun j hj z hz => h3 (j + 1) (by omega) z (by simpa using hz)

theorem cells_of (mid : List Char) (hm : '|' ∉ mid) (cs : List (List Char)) (s : List Char) (hc : ∀ c ∈ cs, '|' ∉ c)
    (h : Line (['|'] ++ mid ++ ['|']) cs s) : cells (['|'] ++ mid ++ ['|']) s = .ok (cs.map strip ++ [[]]) := by
  rw [cells, find_firstLine _ _ _ h]
  simp only
  congr 1
  have e : ['|'] ++ mid ++ ['|'] ++ cs.flatMap (· ++ ['|']) = [] ++ '|' :: (mid ++ '|' :: cs.flatMap (· ++ ['|'])) := by simp
  rw [e, splitOn_append '|' [] _ (by simp), splitOn_append '|' mid _ hm, splitOn_cells cs hc]
  simp [strip]

theorem text_bar (d : Dec) (x : Char) (hx : isDigit x = false) (hx' : x ≠ '.') : x ∉ d.text := by
  intro h
  rcases List.mem_append.1 h with h | h
  · exact Topology.showNat_no _ x hx h
  · rcases List.mem_cons.1 h with h | h
    · exact hx' h
    · obtain ⟨y, hy, rfl⟩ := List.mem_map.1 h
      rw [digitChar_isDigit y (d.small y hy)] at hx
      cases hx

theorem text_head (d : Dec) : ∀ c ∈ d.text.head?, isSpace c = false := fun c hc => text_space d c (List.mem_of_mem_head? hc)

theorem text_last (d : Dec) : ∀ c ∈ d.text.getLast?, isSpace c = false := fun c hc => text_space d c (List.mem_of_mem_getLast? hc)

theorem word_head {w : List Char} (h : Word w) : ∀ c ∈ w.head?, isSpace c = false := fun c hc => (h.2 c (List.mem_of_mem_head? hc)).1

theorem word_last {w : List Char} (h : Word w) : ∀ c ∈ w.getLast?, isSpace c = false := fun c hc => (h.2 c (List.mem_of_mem_getLast? hc)).1

theorem blanks_not {w : List Char} (h : Blanks w) (x : Char) (h1 : x ≠ ' ') (h2 : x ≠ '\t') : x ∉ w := by
  intro hx
  rcases h x hx with e | e
  · exact h1 e
  · exact h2 e

theorem head_append {α : Type} {a b : List α} (ha : a ≠ []) : (a ++ b).head? = a.head? := by
  cases a with
  | nil => exact absurd rfl ha
  | cons x a => rfl

theorem last_append {α : Type} {a b : List α} (hb : b ≠ []) : (a ++ b).getLast? = b.getLast? := by
  rw [List.getLast?_append]
  cases h : b.getLast? with
  | none => exact absurd (List.getLast?_eq_none_iff.1 h) hb
  | some x => rfl

theorem splitOn_spaces (x b y : List Char) (hx : ' ' ∉ x) (hb : Spaces b) (hne : b ≠ []) (hy : ' ' ∉ y) (hx' : x ≠ []) (hy' : y ≠ []) :
    (splitOn ' ' (x ++ b ++ y)).filter (· ≠ []) = [x, y] := by
  have key : ∀ b, Spaces b → (splitOn ' ' (b ++ y)).filter (· ≠ []) = [y] := by
    intro b
    induction b with
    | nil => intro _; rw [List.nil_append, splitOn_line ' ' y hy]; simp [hy']
    | cons c b ih =>
      intro hb
      have hc : c = ' ' := hb c (by simp)
      subst hc
      rw [List.cons_append, splitOn, if_pos rfl, List.filter_cons]
      simpa using ih fun z hz => hb z (by simp [hz])
  cases b with
  | nil => exact absurd rfl hne
  | cons c b =>
    have hc : c = ' ' := hb c (by simp)
    subst hc
    rw [List.append_assoc, List.cons_append, splitOn_append ' ' x _ hx, List.filter_cons]
    have := key b fun z hz => hb z (by simp [hz])
    rw [this]
    simp [hx']

theorem head_bar (p : Port) (hp : p.Plain) (t : List Char) (h : p.Head t) : '|' ∉ t := by
  cases p with
  | one n c =>
    obtain ⟨a, b, ha, hb, rfl⟩ := h
    intro hm
    simp only [List.mem_append] at hm
    rcases hm with (hm | hm) | hm
    · exact blanks_not ha _ (by decide) (by decide) hm
    · exact (hp.2 _ hm).2.1 rfl
    · exact blanks_not hb _ (by decide) (by decide) hm
  | two n s c d =>
    obtain ⟨a, b, e, f, ha, hb, he, hf, rfl⟩ := h
    intro hm
    simp only [List.mem_append, List.mem_singleton] at hm
    rcases hm with (((((hm | hm) | hm) | hm) | hm) | hm) | hm
    · exact blanks_not ha _ (by decide) (by decide) hm
    · exact (hp.1.2 _ hm).2.1 rfl
    · exact blanks_not hb _ (by decide) (by decide) hm
    · cases hm
    · exact blanks_not he _ (by decide) (by decide) hm
    · exact (hp.2.2 _ hm).2.1 rfl
    · exact blanks_not hf _ (by decide) (by decide) hm

theorem cycles_bar (p : Port) (t : List Char) (h : p.Cycles t) : '|' ∉ t := by
  cases p with
  | one n c =>
    obtain ⟨a, b, ha, hb, rfl⟩ := h
    intro hm
    simp only [List.mem_append] at hm
    rcases hm with (hm | hm) | hm
    · exact blanks_not ha _ (by decide) (by decide) hm
    · exact text_bar c _ (by decide) (by decide) hm
    · exact blanks_not hb _ (by decide) (by decide) hm
  | two n s c d =>
    obtain ⟨a, b, e, ha, hb, hne, he, rfl⟩ := h
    intro hm
    simp only [List.mem_append] at hm
    rcases hm with (((hm | hm) | hm) | hm) | hm
    · exact blanks_not ha _ (by decide) (by decide) hm
    · exact text_bar c _ (by decide) (by decide) hm
    · exact absurd (hb _ hm) (by decide)
    · exact text_bar d _ (by decide) (by decide) hm
    · exact blanks_not he _ (by decide) (by decide) hm

theorem float_text (d : Dec) : float d.text = .ok d.value := by rw [float, parseDec_text]

theorem stepCell_port (p : Port) (hp : p.Plain) (t u : List Char) (ht : p.Head t) (hu : p.Cycles u) (acc : List (List Char × ℚ)) :
    stepCell acc (strip t, some (strip u)) = .ok (acc ++ p.units) := by
  cases p with
  | one n c =>
    obtain ⟨a, b, ha, hb, rfl⟩ := ht
    obtain ⟨a', b', ha', hb', rfl⟩ := hu
    have hp : Word n := hp
    have hs : ' ' ∉ c.text := text_bar c _ (by decide) (by decide)
    rw [Topology.strip_blanks a n b ha hb hp.1 (word_head hp) (word_last hp),
      Topology.strip_blanks a' c.text b' ha' hb' (text_ne_nil c) (text_head c) (text_last c)]
    simp only [stepCell]
    rw [if_neg (fun h => hs h.2), if_pos ⟨hp.1, text_ne_nil c⟩, float_text]
    rfl
  | two n s c d =>
    obtain ⟨a, b, e, f, ha, hb, he, hf, rfl⟩ := ht
    obtain ⟨a', b', e', ha', hb', hne, he', rfl⟩ := hu
    obtain ⟨hn, hs⟩ : Word n ∧ Word s := hp
    have e1 : strip (a ++ n ++ b ++ ['-'] ++ e ++ s ++ f) = n ++ b ++ '-' :: (e ++ s) := by
      have := Topology.strip_blanks a (n ++ b ++ '-' :: (e ++ s)) f ha hf (by simp) (by
        rw [List.append_assoc, head_append hn.1]
        exact word_head hn) (by
        rw [last_append (by simp), show '-' :: (e ++ s) = ('-' :: e) ++ s by simp, last_append hs.1]
        exact word_last hs)
      rw [← this]
      congr 1
      simp
    have e2 : strip (a' ++ c.text ++ b' ++ d.text ++ e') = c.text ++ b' ++ d.text := by
      have := Topology.strip_blanks a' (c.text ++ b' ++ d.text) e' ha' he' (by simp [text_ne_nil]) (by
        rw [List.append_assoc, head_append (text_ne_nil c)]
        exact text_head c) (by
        rw [last_append (text_ne_nil d)]
        exact text_last d)
      rw [← this]
      congr 1
      simp
    have hnd : '-' ∉ n ++ b := by
      intro h
      rcases List.mem_append.1 h with h | h
      · exact (hn.2 _ h).2.2 rfl
      · exact blanks_not hb _ (by decide) (by decide) h
    have hsd : '-' ∉ e ++ s := by
      intro h
      rcases List.mem_append.1 h with h | h
      · exact blanks_not he _ (by decide) (by decide) h
      · exact (hs.2 _ h).2.2 rfl
    have e3 : (splitOn '-' (n ++ b ++ '-' :: (e ++ s))).map strip = [n, s] := by
      rw [splitOn_append '-' _ _ hnd, splitOn_line '-' _ hsd]
      have k1 := Topology.strip_blanks [] n b (by simp [Blanks]) hb hn.1 (word_head hn) (word_last hn)
      have k2 := Topology.strip_blanks e s [] he (by simp [Blanks]) hs.1 (word_head hs) (word_last hs)
      simp only [List.nil_append, List.append_nil] at k1 k2
      simp [k1, k2]
    have e4 := splitOn_spaces c.text b' d.text (text_bar c _ (by decide) (by decide)) hb' hne (text_bar d _ (by decide) (by decide))
      (text_ne_nil c) (text_ne_nil d)
    have hsp : ' ' ∈ c.text ++ b' ++ d.text := by
      cases b' with
      | nil => exact absurd rfl hne
      | cons x b' =>
        have : x = ' ' := hb' x (by simp)
        subst this
        simp
    rw [e1, e2]
    simp only [stepCell]
    rw [if_pos ⟨by simp, hsp⟩, e3, e4]
    simp only [item, List.getElem?_cons_zero, List.getElem?_cons_succ, bind, Except.bind, float_text]
    rfl

theorem cells_fold (ps : List Port) (hp : ∀ p ∈ ps, p.Plain) (hs cs : List (List Char)) (hh : List.Forall₂ Port.Head ps hs)
    (hc : List.Forall₂ Port.Cycles ps cs) (acc : List (List Char × ℚ)) :
    ((hs.map strip ++ [[]]).zip ((cs.map strip ++ [[]]).map some)).foldlM stepCell acc = .ok (acc ++ ps.flatMap Port.units) := by
  induction hh generalizing cs acc with
  | nil =>
    cases hc
    simp [stepCell, pure, Except.pure, bind, Except.bind]
  | @cons p h ps hs h1 h2 ih =>
    cases hc with
    | @cons _ c _ cs h3 h4 =>
      simp only [List.map_cons, List.cons_append, List.zip_cons_cons, List.foldlM_cons,
        stepCell_port p (hp p (by simp)) h c h1 h3]
      have := ih (fun x hx => hp x (by simp [hx])) cs h4 (acc ++ p.units)
      simp only [List.map_append, List.map_cons, List.map_nil] at this ⊢
      simp only [bind, Except.bind, this, List.flatMap_cons, List.append_assoc]

theorem range_zip {α β : Type} (as : List α) (bs : List β) (x : α) (h : as.length = bs.length) :
    ((List.range as.length).map fun i => (as.getD i x, bs[i]?)) = as.zip (bs.map some) := by
  refine List.ext_getElem (by simp [h]) fun i h1 h2 => ?_
  have hi : i < as.length := by simpa using h1
  simp [hi, show i < bs.length by omega]

end Verif.Analyzer
