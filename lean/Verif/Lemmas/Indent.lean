import Verif.Model.Indent
import Verif.Spec.Indent
import Verif.Lemmas.Text

/-!
Lemmas on indented text and tables.
-/

namespace Verif.Indent

open Verif.Text

theorem splitNl_text (ls : List (List Char)) (h : ∀ l ∈ ls, '\n' ∉ l) : splitNl (text ls) = ls ++ [[]] := by
  induction ls with
  | nil => rfl
  | cons l ls ih =>
    have e : text (l :: ls) = l ++ '\n' :: text ls := by simp [text]
    rw [e, splitNl_append, splitNl_line l (h l (by simp)), ih fun x hx => h x (by simp [hx])]
    rfl

theorem text_inj {a b : List (List Char)} (ha : ∀ l ∈ a, '\n' ∉ l) (hb : ∀ l ∈ b, '\n' ∉ l) (h : text a = text b) : a = b := by
  have := congrArg splitNl h
  rw [splitNl_text a ha, splitNl_text b hb] at this
  exact List.append_cancel_right this

theorem text_append (a b : List (List Char)) : text (a ++ b) = text a ++ text b := by simp [text]

theorem joinNl_text (ms : List (List Char)) (h : ms ≠ []) : joinNl ms ++ ['\n'] = text ms := by
  induction ms with
  | nil => exact absurd rfl h
  | cons l ls ih =>
    cases ls with
    | nil => simp [joinNl, text]
    | cons l' ls =>
      have := ih (by simp)
      simp only [joinNl, List.append_assoc, List.cons_append, this]
      simp [text]

theorem joinNl_empty_last (ms : List (List Char)) : joinNl (ms ++ [[]]) = text ms := by
  induction ms with
  | nil => rfl
  | cons l ls ih =>
    cases hs : ls ++ [[]] with
    | nil => simp at hs
    | cons m ms =>
      rw [hs] at ih
      simp only [List.cons_append, hs, joinNl, ih]
      simp [text]

theorem joinNl_last (ms : List (List Char)) (m : List Char) (hm : m ≠ []) : (joinNl (ms ++ [m])).getLast? = m.getLast? := by
  induction ms with
  | nil => rfl
  | cons l ls ih =>
    cases hs : ls ++ [m] with
    | nil => simp at hs
    | cons a as =>
      rw [hs] at ih
      have hne : joinNl (a :: as) ≠ [] := by
        intro e
        rw [e] at ih
        exact hm (List.getLast?_eq_none_iff.1 (by rw [← ih]; rfl))
      simp only [List.cons_append, hs, joinNl]
      rw [List.getLast?_append_of_ne_nil _ (by simp), List.getLast?_cons_of_ne_nil hne, ih]

/-- The later prefix that is used. -/
def used (pre later : List Char) : List Char := if later.length = 1 then List.replicate pre.length ' ' else later

theorem used_nl (pre later : List Char) (h : '\n' ∉ later) : '\n' ∉ used pre later := by
  unfold used
  split
  · simp
  · exact h

/-- The end of the function. -/
def closed (line : List Char) : List Char := if line.getLast? ≠ some '\n' then line ++ ['\n'] else line

theorem closed_open (line : List Char) (h : line.getLast? ≠ some '\n') : closed line = line ++ ['\n'] := if_pos h

theorem closed_closed (line : List Char) (h : line.getLast? = some '\n') : closed line = line := if_neg (by simp [h])

theorem prefixIndent_eq (pre block later : List Char) : prefixIndent pre block later =
    closed (pre ++ (splitNl block).headD [] ++ ['\n'] ++ joinNl ((splitNl block).tail.map (used pre later ++ ·))) := rfl

theorem prefixIndent_one (pre l later : List Char) (h : '\n' ∉ l) : prefixIndent pre l later = text [pre ++ l] := by
  rw [prefixIndent_eq, splitNl_line l h]
  simp [joinNl, text, closed]

theorem prefixIndent_full (pre l later : List Char) (ls : List (List Char)) (m : List Char) (hl : ∀ x ∈ l :: (ls ++ [m]), '\n' ∉ x)
    (hlat : '\n' ∉ later) (hne : used pre later ++ m ≠ []) :
    prefixIndent pre (joinNl (l :: (ls ++ [m]))) later = text ((pre ++ l) :: (ls ++ [m]).map (used pre later ++ ·)) := by
  have hu := used_nl pre later hlat
  rw [prefixIndent_eq, splitNl_joinNl _ (by simp) hl, List.headD_cons, List.tail_cons]
  have hlast : (pre ++ l ++ ['\n'] ++ joinNl (List.map (fun x => used pre later ++ x) (ls ++ [m]))).getLast? ≠ some '\n' := by
    have hj := joinNl_last (ls.map (used pre later ++ ·)) _ hne
    have hn : '\n' ∉ used pre later ++ m := by
      simp only [List.mem_append, not_or]
      exact ⟨hu, hl m (by simp)⟩
    have hjn : joinNl (List.map (fun x => used pre later ++ x) (ls ++ [m])) ≠ [] := by
      intro e
      rw [List.map_append, List.map_singleton] at e
      rw [e] at hj
      exact hne (List.getLast?_eq_none_iff.1 (by rw [← hj]; rfl))
    rw [List.getLast?_append_of_ne_nil _ hjn, List.map_append, List.map_singleton, hj]
    intro e
    exact hn (List.mem_of_getLast? e)
  rw [closed_open _ hlast, List.append_assoc, joinNl_text _ (by simp)]
  simp [text]

theorem prefixIndent_short (pre l later : List Char) (ls : List (List Char)) (m : List Char) (hl : ∀ x ∈ l :: (ls ++ [m]), '\n' ∉ x)
    (he : used pre later ++ m = []) : prefixIndent pre (joinNl (l :: (ls ++ [m]))) later = text ((pre ++ l) :: ls) := by
  have hu : used pre later = [] := (List.append_eq_nil_iff.1 he).1
  have hm : m = [] := (List.append_eq_nil_iff.1 he).2
  subst hm
  rw [prefixIndent_eq, splitNl_joinNl _ (by simp) hl, List.headD_cons, List.tail_cons, hu]
  have e : (ls ++ [[]]).map (fun x : List Char => [] ++ x) = ls ++ [[]] := by simp
  rw [e, joinNl_empty_last]
  have hx : pre ++ l ++ ['\n'] ++ text ls = text ((pre ++ l) :: ls) := by simp [text]
  rw [hx]
  apply closed_closed
  rcases List.eq_nil_or_concat ((pre ++ l) :: ls) with h | ⟨a, b, h⟩
  · simp at h
  · rw [h, List.concat_eq_append, text_append]
    simp [text]

theorem indented_cons (pre later l : List Char) (ls : List (List Char)) :
    indented pre later (l :: ls) = (pre ++ l) :: ls.map (repeated pre.length later ++ ·) := rfl

theorem repeated_of {n : Nat} {later : List Char} (h : later.length ≠ 1) : repeated n later = later := by
  unfold repeated
  split
  · simp at h
  · rfl

theorem rjust_mem {n : Nat} {s : List Char} {c : Char} (h : c ∈ rjust n s) : c = ' ' ∨ c ∈ s := by
  unfold rjust at h
  rcases List.mem_append.1 h with h | h
  · exact .inl (List.eq_of_mem_replicate h)
  · exact .inr h

theorem rjust_length (n : Nat) (s : List Char) : (rjust n s).length = max n s.length := by
  simp only [rjust, List.length_append, List.length_replicate]; omega

theorem ljust_mem {n : Nat} {s : List Char} {c : Char} (h : c ∈ ljust n s) : c = ' ' ∨ c ∈ s := by
  unfold ljust at h
  rcases List.mem_append.1 h with h | h
  · exact .inr h
  · exact .inl (List.eq_of_mem_replicate h)

/-- The offsets that are printed: a name without offsets has one empty line. -/
def shown (offsets : List (List Char)) : List (List Char) := if offsets = [] then [[]] else offsets

/-- The lines of a name. -/
def nameLines (a : List Char × List (List Char)) : List (List Char) :=
  indented (rjust 8 a.1 ++ bar) accessLater (shown a.2)

theorem accessLater_length : accessLater.length ≠ 1 := by decide

theorem accessLater_used (pre : List Char) : used pre accessLater = accessLater := by
  unfold used
  rw [if_neg accessLater_length]

theorem accessLater_spec (pre : List Char) :
    repeated pre.length accessLater = accessLater := by
  unfold accessLater
  rfl

theorem accessRows_text (name : List Char) (offsets : List (List Char)) (ho : ∀ o ∈ offsets, '\n' ∉ o) :
    accessRows name offsets = text (nameLines (name, offsets)) := by
  unfold accessRows nameLines
  have hj : joinNl offsets = joinNl (shown offsets) := by
    unfold shown
    split
    · next h => rw [h]; rfl
    · rfl
  have hs : ∀ o ∈ shown offsets, '\n' ∉ o := by
    unfold shown
    split
    · simp
    · exact ho
  have hne : shown offsets ≠ [] := by unfold shown; split <;> simp_all
  rw [hj]
  generalize shown offsets = os at hs hne
  cases os with
  | nil => exact absurd rfl hne
  | cons l ls =>
    rcases List.eq_nil_or_concat ls with h | ⟨ms, m, h⟩
    · subst h
      exact prefixIndent_one _ _ _ (hs l (by simp))
    · rw [List.concat_eq_append] at h
      subst h
      rw [prefixIndent_full _ _ _ _ _ hs (by decide) (by rw [accessLater_used]; simp [accessLater]), indented_cons, accessLater_used, accessLater_spec]

theorem accessTable_text (as : List (List Char × List (List Char))) (ho : ∀ a ∈ as, ∀ o ∈ a.2, '\n' ∉ o) :
    accessTable as = text (accessHead ++ as.flatMap nameLines) := by
  rw [text_append]
  unfold accessTable
  congr 1
  induction as with
  | nil => rfl
  | cons a as ih =>
    rw [List.flatMap_cons, List.flatMap_cons, text_append, ← ih fun x hx => ho x (by simp [hx])]
    rw [accessRows_text a.1 a.2 (ho a (by simp))]

/-- A line without a name. -/
def isCont (line : List Char) : Bool := (line.takeWhile (· ≠ '|')).all (· = ' ')

/-- What stands behind the bar. -/
def offOf (line : List Char) : List Char := (line.dropWhile (· ≠ '|')).drop 2

/-- The name before the bar. -/
def nameOf (line : List Char) : List Char := (line.takeWhile (· ≠ '|')).filter (· ≠ ' ')

/-- Reads one more line, from below. -/
def step (line : List Char) (s : List (List Char) × List (List Char × List (List Char))) :
    List (List Char) × List (List Char × List (List Char)) :=
  if isCont line then (offOf line :: s.1, s.2) else ([], (nameOf line, offOf line :: s.1) :: s.2)

/-- Names have no blanks, bars or newlines in them. -/
def Name (n : List Char) : Prop := n ≠ [] ∧ ' ' ∉ n ∧ '|' ∉ n ∧ '\n' ∉ n

theorem cont_line (o : List Char) : isCont (accessLater ++ o) = true ∧ offOf (accessLater ++ o) = o := by
  constructor <;> simp [isCont, offOf, accessLater]

theorem takeWhile_bar (a b : List Char) (ha : '|' ∉ a) :
    (a ++ '|' :: b).takeWhile (fun c => decide (c ≠ '|')) = a ∧ (a ++ '|' :: b).dropWhile (fun c => decide (c ≠ '|')) = '|' :: b := by
  induction a with
  | nil => simp
  | cons x a ih =>
    simp only [List.mem_cons, not_or] at ha
    obtain ⟨i1, i2⟩ := ih ha.2
    have hx : x ≠ '|' := fun e => ha.1 e.symm
    constructor
    · simp only [List.cons_append]
      rw [List.takeWhile_cons_of_pos (by simp [hx]), i1]
    · simp only [List.cons_append]
      rw [List.dropWhile_cons_of_pos (by simp [hx]), i2]

theorem name_line (n o : List Char) (hn : Name n) :
    isCont (rjust 8 n ++ bar ++ o) = false ∧ offOf (rjust 8 n ++ bar ++ o) = o ∧ nameOf (rjust 8 n ++ bar ++ o) = n := by
  obtain ⟨h1, h2, h3, _⟩ := hn
  have e : rjust 8 n ++ bar ++ o = (rjust 8 n ++ [' ']) ++ '|' :: (' ' :: o) := by simp [bar]
  have hb : '|' ∉ rjust 8 n ++ [' '] := by
    simp only [List.mem_append, List.mem_singleton, not_or]
    refine ⟨fun h => ?_, by decide⟩
    rcases rjust_mem h with h | h
    · exact absurd h (by decide)
    · exact h3 h
  obtain ⟨t, d⟩ := takeWhile_bar _ (' ' :: o) hb
  rw [e]
  refine ⟨?_, ?_, ?_⟩
  · unfold isCont
    rw [t]
    cases n with
    | nil => exact absurd rfl h1
    | cons c n =>
      have : c ≠ ' ' := fun e => h2 (by simp [e])
      simp [rjust, this]
  · unfold offOf
    rw [d]
    rfl
  · unfold nameOf
    rw [t]
    have hf : n.filter (fun c => decide (c ≠ ' ')) = n := by
      rw [List.filter_eq_self]
      intro c hc
      simp only [ne_eq, decide_not, Bool.not_eq_true', decide_eq_false_iff_not]
      rintro rfl
      exact h2 hc
    unfold rjust
    rw [List.filter_append, List.filter_append, hf]
    simp

theorem read_conts (os : List (List Char)) (s) :
    (os.map (accessLater ++ ·)).foldr step s = (os ++ s.1, s.2) := by
  induction os with
  | nil => rfl
  | cons o os ih =>
    obtain ⟨h1, h2⟩ := cont_line o
    rw [List.map_cons, List.foldr_cons, ih]
    simp [step, h1, h2]

theorem read_name (a : List Char × List (List Char)) (hn : Name a.1) (out) :
    (nameLines a).foldr step ([], out) = ([], (a.1, shown a.2) :: out) := by
  unfold nameLines
  have hne : shown a.2 ≠ [] := by unfold shown; split <;> simp_all
  generalize shown a.2 = os at hne
  cases os with
  | nil => exact absurd rfl hne
  | cons o os =>
    rw [indented_cons, accessLater_spec, List.foldr_cons, read_conts]
    obtain ⟨h1, h2, h3⟩ := name_line a.1 o hn
    unfold step
    rw [h1, h2, h3]
    simp

theorem read_all (as : List (List Char × List (List Char))) (hn : ∀ a ∈ as, Name a.1) :
    (as.flatMap nameLines).foldr step ([], []) = ([], as.map fun a => (a.1, shown a.2)) := by
  induction as with
  | nil => rfl
  | cons a as ih =>
    rw [List.flatMap_cons, List.foldr_append, ih fun x hx => hn x (by simp [hx]), read_name a (hn a (by simp))]
    rfl

theorem shown_inj {a b : List (List Char)} (ha : [] ∉ a) (hb : [] ∉ b) (h : shown a = shown b) : a = b := by
  unfold shown at h
  split at h <;> split at h
  · simp_all
  · exact absurd (h ▸ List.mem_singleton.2 rfl) hb
  · exact absurd (h ▸ List.mem_singleton.2 rfl) ha
  · exact h

theorem bar_iff (n : List Char) (o : List Char) (hn : '|' ∉ n) : BarAt 9 (rjust 8 n ++ bar ++ o) ↔ n.length ≤ 8 := by
  have e : rjust 8 n ++ bar ++ o = (rjust 8 n ++ [' ']) ++ '|' :: (' ' :: o) := by simp [bar]
  have hb : '|' ∉ rjust 8 n ++ [' '] := by
    simp only [List.mem_append, List.mem_singleton, not_or]
    refine ⟨fun h => ?_, by decide⟩
    rcases rjust_mem h with h | h
    · exact absurd h (by decide)
    · exact hn h
  rw [e]
  constructor
  · rintro ⟨a, b, h, ha, hl⟩
    have t1 := (takeWhile_bar _ (' ' :: o) hb).1
    have t2 := (takeWhile_bar a b ha).1
    rw [h, t2] at t1
    rw [t1] at hl
    simp only [List.length_append, rjust_length, List.length_singleton] at hl
    omega
  · intro hl
    refine ⟨_, _, rfl, hb, ?_⟩
    simp only [List.length_append, rjust_length, List.length_singleton]
    omega

theorem nameLines_nl (a : List Char × List (List Char)) (hn : '\n' ∉ a.1) (ho : ∀ o ∈ a.2, '\n' ∉ o) : ∀ l ∈ nameLines a, '\n' ∉ l := by
  unfold nameLines
  have hs : ∀ o ∈ shown a.2, '\n' ∉ o := by
    unfold shown
    split
    · simp
    · exact ho
  generalize shown a.2 = os at hs
  cases os with
  | nil => simp [indented]
  | cons o os =>
    rw [indented_cons, accessLater_spec]
    intro l hl
    rcases List.mem_cons.1 hl with rfl | hl
    · simp only [List.mem_append, not_or]
      refine ⟨⟨fun h => ?_, by decide⟩, hs o (by simp)⟩
      rcases rjust_mem h with h | h
      · exact absurd h (by decide)
      · exact hn h
    · obtain ⟨x, hx, rfl⟩ := List.mem_map.1 hl
      simp only [List.mem_append, not_or]
      exact ⟨by decide, hs x (by simp [hx])⟩

theorem flatMap_text {α : Type} (f : α → List Char) (l : List α) : l.flatMap (fun x => f x ++ ['\n']) = text (l.map f) := by
  simp [text, List.flatMap_map]

end Verif.Indent
