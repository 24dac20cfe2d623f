import Verif.Model.Bench
import Mathlib.Data.List.Basic
import Mathlib.Data.List.Perm.Basic
import Mathlib.Data.List.Nodup
import Mathlib.Data.List.Perm.Subperm
import Mathlib.Data.List.Induction
import Mathlib.Tactic.Tauto

/-!
C28-C30 and C32: run planner, register descriptions, environment wrapper.
-/

namespace Verif.Bench

/-! ## C30 -/

/-! ### Specification: the grammar of register descriptions -/

/-- Order of the characters in ranges: a-z, A-Z, 0-9. -/
def rank (c : Char) : Nat :=
  if 'a' ≤ c ∧ c ≤ 'z' then c.toNat - 'a'.toNat
  else if 'A' ≤ c ∧ c ≤ 'Z' then 26 + (c.toNat - 'A'.toNat)
  else 52 + (c.toNat - '0'.toNat)

/-- Letters and digits. -/
def LetterOrDigit (c : Char) : Prop :=
  ('a' ≤ c ∧ c ≤ 'z') ∨ ('A' ≤ c ∧ c ≤ 'Z') ∨ ('0' ≤ c ∧ c ≤ '9')

/-- Element of a bracketed group. -/
inductive Item
  | single (c : Char)
  | range (a b : Char)
deriving DecidableEq, Repr

/-- First character of an element. -/
def Item.first : Item → Char
  | .single c => c
  | .range a _ => a

/-- How an element is written. -/
def Item.text : Item → List Char
  | .single c => [c]
  | .range a b => [a, '-', b]

/-- What an element stands for; `C30_range` says what `charRange` contains. -/
def Item.choices : Item → List Char
  | .single c => [c]
  | .range a b => charRange a b

/-- Elements that may occur in a group. -/
def Item.Ok : Item → Prop
  | .single c => c ≠ '\n' ∧ c ≠ ']' ∧ c ≠ '|'
  | .range a b => isAlnum a ∧ isAlnum b

/-- A literal dash is not surrounded by letters or digits (it would be read as a range). -/
def Unambiguous : List Item → Prop
  | .single a :: .single d :: x :: rest =>
    ¬ (isAlnum a ∧ d = '-' ∧ isAlnum x.first) ∧ Unambiguous (.single d :: x :: rest)
  | _ :: rest => Unambiguous rest
  | [] => True

/-- One position of a register name. -/
inductive Pos
  | lit (c : Char)
  | grp (items : List Item)
deriving DecidableEq, Repr

/-- How a position is written. -/
def Pos.text : Pos → List Char
  | .lit c => [c]
  | .grp items => '[' :: items.flatMap Item.text ++ [']']

/-- Characters possible at a position. -/
def Pos.choices : Pos → List Char
  | .lit c => [c]
  | .grp items => items.flatMap Item.choices

/-- Positions covered by the grammar. -/
def Pos.Ok : Pos → Prop
  | .lit c => c ≠ '[' ∧ c ≠ '|' ∧ c ≠ '\n'
  | .grp items => items ≠ [] ∧ (∀ i ∈ items, i.Ok) ∧ Unambiguous items

/-- The names described by a list of positions: one character per position, in lexicographic order of the
choices. -/
def names : List Pos → List (List Char)
  | [] => [[]]
  | p :: ps => p.choices.flatMap fun c => (names ps).map (c :: ·)

/-- Text of one alternative. -/
def altText (ps : List Pos) : List Char := ps.flatMap Pos.text

/-- Text of a description. -/
def descText (alts : List (List Pos)) : List Char := ['|'].intercalate (alts.map altText)

/-! ### Ranges -/

theorem orderedChars_rank : ∀ c ∈ orderedChars, orderedChars.idxOf c = rank c := by decide

theorem orderedChars_sorted : orderedChars.Pairwise (fun a b => rank a < rank b) := by decide

theorem mem_orderedChars (c : Char) : c ∈ orderedChars ↔ LetterOrDigit c := by
  constructor
  · intro h
    have : ∀ c ∈ orderedChars, (('a' ≤ c ∧ c ≤ 'z') ∨ ('A' ≤ c ∧ c ≤ 'Z') ∨ ('0' ≤ c ∧ c ≤ '9')) := by
      decide
    exact this c h
  · intro h
    have key : ∀ n, (97 ≤ n ∧ n ≤ 122 ∨ 65 ≤ n ∧ n ≤ 90 ∨ 48 ≤ n ∧ n ≤ 57) →
        Char.ofNat n ∈ orderedChars := by
      have : ∀ n < 123, (97 ≤ n ∧ n ≤ 122 ∨ 65 ≤ n ∧ n ≤ 90 ∨ 48 ≤ n ∧ n ≤ 57) →
        Char.ofNat n ∈ orderedChars := by decide
      intro n hn
      exact this n (by omega) hn
    rw [← Char.ofNat_toNat c]
    apply key
    have le : ∀ a b : Char, a ≤ b ↔ a.toNat ≤ b.toNat := fun a b => Iff.rfl
    unfold LetterOrDigit at h
    simp only [le] at h
    exact h

/-- C30: a range contains exactly the letters and digits between its ends (in the order a-z, A-Z, 0-9), in
that order; it is empty if reversed. -/
theorem C30_range (a b : Char) (ha : LetterOrDigit a) (hb : LetterOrDigit b) :
    (charRange a b).Pairwise (fun x y => rank x < rank y) ∧
    (∀ c, c ∈ charRange a b ↔ LetterOrDigit c ∧ rank a ≤ rank c ∧ rank c ≤ rank b) ∧
    (rank b < rank a → charRange a b = []) := by
  have ha' := orderedChars_rank a ((mem_orderedChars a).2 ha)
  have hb' := orderedChars_rank b ((mem_orderedChars b).2 hb)
  have hmem : ∀ c, c ∈ charRange a b ↔ LetterOrDigit c ∧ rank a ≤ rank c ∧ rank c ≤ rank b := by
    intro c
    unfold charRange
    rw [ha', hb', List.mem_take_iff_getElem]
    constructor
    · rintro ⟨i, hi, rfl⟩
      rw [List.getElem_drop]
      have hlen : rank a + i < orderedChars.length := by simp at hi; omega
      have hm : orderedChars[rank a + i] ∈ orderedChars := List.getElem_mem _
      have hnd : orderedChars.Nodup := by decide
      have hidx : orderedChars.idxOf orderedChars[rank a + i] = rank a + i :=
        hnd.idxOf_getElem _ hlen
      rw [orderedChars_rank _ hm] at hidx
      refine ⟨(mem_orderedChars _).1 hm, by omega, ?_⟩
      simp at hi
      omega
    · rintro ⟨h1, h2, h3⟩
      have hm := (mem_orderedChars c).2 h1
      have hr := orderedChars_rank c hm
      have hlt : rank c < orderedChars.length := by rw [← hr]; exact List.idxOf_lt_length_iff.2 hm
      refine ⟨rank c - rank a, ?_, ?_⟩
      · simp; omega
      · rw [List.getElem_drop]
        have : rank a + (rank c - rank a) = rank c := by omega
        simp only [this]
        simp only [← hr]
        exact List.getElem_idxOf _
  refine ⟨?_, hmem, ?_⟩
  · exact ((orderedChars_sorted.sublist (List.drop_sublist _ _)).sublist (List.take_sublist _ _))
  · intro h
    rw [List.eq_nil_iff_forall_not_mem]
    intro c hc
    have := (hmem c).1 hc
    omega

/-! ### Expansion -/

theorem groupIter_cons (a : Char) (t : List Char)
    (h : ∀ b r, t = '-' :: b :: r → ¬ (isAlnum a ∧ isAlnum b)) :
    groupIter (a :: t) = emit a ++ groupIter t := by
  rw [groupIter.eq_def]
  split
  · rename_i heq
    simp only [List.cons.injEq] at heq
    obtain ⟨rfl, rfl⟩ := heq
    have := h _ _ rfl
    rw [if_neg (by simpa using this)]
  · rename_i heq
    simp only [List.cons.injEq] at heq
    obtain ⟨rfl, rfl⟩ := heq
    rfl
  · rename_i heq; simp at heq

theorem isAlnum_dash : isAlnum '-' = false := by decide

theorem groupIter_text (items : List Item) (hok : ∀ i ∈ items, i.Ok) (hu : Unambiguous items) :
    groupIter (items.flatMap Item.text) = items.flatMap Item.choices := by
  induction items with
  | nil => rfl
  | cons i items ih =>
    have hi := hok i (by simp)
    have hrest := fun j hj => hok j (List.mem_cons_of_mem _ hj)
    cases i with
    | range a b =>
      have hu' : Unambiguous items := by
        cases items with
        | nil => exact trivial
        | cons x xs => simpa [Unambiguous] using hu
      simp only [List.flatMap_cons, Item.text, Item.choices, List.cons_append, List.nil_append]
      rw [groupIter.eq_def]
      simp only
      rw [if_pos (by simpa [Item.Ok] using hi), ih hrest hu']
    | single a =>
      have hu' : Unambiguous items := by
        cases items with
        | nil => exact trivial
        | cons x xs =>
          cases x with
          | range _ _ => simpa [Unambiguous] using hu
          | single d =>
            cases xs with
            | nil => simp [Unambiguous]
            | cons y ys => simp only [Unambiguous] at hu; exact hu.2
      simp only [List.flatMap_cons, Item.text, Item.choices, List.cons_append, List.nil_append]
      rw [groupIter_cons, ih hrest hu']
      · simp [emit, hi.1]
      · intro b r heq hab
        cases items with
        | nil => simp at heq
        | cons x xs =>
          cases x with
          | range c d =>
            have hx := hrest (.range c d) (by simp)
            simp only [List.flatMap_cons, Item.text, List.cons_append, List.cons.injEq] at heq
            rw [heq.1] at hx
            simp [Item.Ok, isAlnum_dash] at hx
          | single d =>
            cases xs with
            | nil => simp [Item.text] at heq
            | cons y ys =>
              simp only [Unambiguous] at hu
              apply hu.1
              simp only [List.flatMap_cons, Item.text, List.cons_append, List.nil_append,
                List.cons.injEq] at heq
              refine ⟨hab.1, heq.1, ?_⟩
              have : y.first = b := by
                cases y <;> simp at heq <;> simp [Item.first, heq]
              rw [this]; exact hab.2

theorem takeWhile_append_stop (g tail : List Char) (h : ']' ∉ g) :
    (g ++ ']' :: tail).takeWhile (· != ']') = g ∧ (g ++ ']' :: tail).dropWhile (· != ']') = ']' :: tail := by
  induction g with
  | nil => simp
  | cons c g ih =>
    simp only [List.mem_cons, not_or] at h
    have hc : (c != ']') = true := by simpa using fun e => h.1 e.symm
    simp only [List.cons_append, List.takeWhile_cons, List.dropWhile_cons, hc, if_true]
    exact ⟨by rw [(ih h.2).1], (ih h.2).2⟩

theorem itemText_ne (i : Item) (hi : i.Ok) : i.text ≠ [] ∧ ']' ∉ i.text ∧ '|' ∉ i.text := by
  have h1 : isAlnum ']' = false := by decide
  have h2 : isAlnum '|' = false := by decide
  cases i with
  | single c =>
    simp only [Item.Ok] at hi
    simp only [Item.text, List.mem_singleton, ne_eq, List.cons_ne_nil, not_false_eq_true, true_and]
    exact ⟨fun e => hi.2.1 e.symm, fun e => hi.2.2 e.symm⟩
  | range a b =>
    simp only [Item.Ok] at hi
    refine ⟨by simp [Item.text], ?_, ?_⟩
    · simp only [Item.text, List.mem_cons, List.not_mem_nil, or_false]
      rintro (rfl | h | rfl)
      · simp [h1] at hi
      · exact absurd h (by decide)
      · simp [h1] at hi
    · simp only [Item.text, List.mem_cons, List.not_mem_nil, or_false]
      rintro (rfl | h | rfl)
      · simp [h2] at hi
      · exact absurd h (by decide)
      · simp [h2] at hi

theorem firstToken_pos (p : Pos) (hp : p.Ok) (tail : List Char) :
    firstToken (p.text ++ tail) = some (p.choices, tail) := by
  cases p with
  | lit c =>
    simp only [Pos.Ok] at hp
    simp only [Pos.text, Pos.choices, List.cons_append, List.nil_append, firstToken]
    have : matchGroup (c :: tail) = none := by
      rw [matchGroup.eq_def]
      split
      · rename_i heq; simp only [List.cons.injEq] at heq; exact absurd heq.1 hp.1
      · rfl
    rw [this]
    simp [hp.2.2]
  | grp items =>
    simp only [Pos.Ok] at hp
    obtain ⟨h1, h2, h3⟩ := hp
    have hno : ']' ∉ items.flatMap Item.text := by
      simp only [List.mem_flatMap, not_exists, not_and]
      exact fun i hi => (itemText_ne i (h2 i hi)).2.1
    have hne : items.flatMap Item.text ≠ [] := by
      obtain ⟨i, is, rfl⟩ := List.exists_cons_of_ne_nil h1
      have := (itemText_ne i (h2 i (by simp))).1
      simp [this]
    have hm : matchGroup ('[' :: (items.flatMap Item.text ++ ']' :: tail)) =
        some (items.flatMap Item.text, tail) := by
      unfold matchGroup
      simp only [(takeWhile_append_stop _ tail hno).1, (takeWhile_append_stop _ tail hno).2, if_neg hne]
    simp only [Pos.text, Pos.choices, List.cons_append, List.append_assoc, List.nil_append, firstToken,
      hm, groupIter_text items h2 h3]

theorem forEach_ok {α β : Type} (l : List α) (f : α → List β) :
    Gen.forEach l (fun c => ⟨f c, false⟩) = ⟨l.flatMap f, false⟩ := by
  induction l with
  | nil => rfl
  | cons a l ih => simp [Gen.forEach, ih, Gen.append]

theorem posText_ne (p : Pos) : p.text ≠ [] := by cases p <;> simp [Pos.text]

theorem altText_eq_nil (ps : List Pos) : altText ps = [] ↔ ps = [] := by
  cases ps with
  | nil => simp [altText]
  | cons p ps => simp [altText, posText_ne]

theorem alternative_text (ps : List Pos) (hne : ps ≠ []) (hok : ∀ p ∈ ps, p.Ok) (n : Nat)
    (hn : (altText ps).length ≤ n) : alternative n (altText ps) = ⟨names ps, false⟩ := by
  induction ps generalizing n with
  | nil => exact absurd rfl hne
  | cons p ps ih =>
    have htext : altText (p :: ps) = p.text ++ altText ps := by simp [altText]
    have hpl : 1 ≤ p.text.length := List.length_pos_iff.2 (posText_ne p)
    rw [htext, List.length_append] at hn
    obtain ⟨m, rfl⟩ : ∃ m, n = m + 1 := ⟨n - 1, by omega⟩
    rw [alternative, htext, firstToken_pos p (hok p (by simp))]
    simp only
    by_cases hps : ps = []
    · subst hps
      have : altText [] = [] := rfl
      rw [this]
      simp only [if_true]
      rw [forEach_ok p.choices (fun c => [[c]])]
      simp [names]
    · have hnil : altText ps ≠ [] := fun h => hps ((altText_eq_nil ps).1 h)
      have := ih hps (fun q hq => hok q (by simp [hq])) m (by omega)
      simp only [if_neg hnil, this]
      rw [forEach_ok p.choices (fun c => (names ps).map (c :: ·))]
      rfl

theorem altText_no_bar (ps : List Pos) (hok : ∀ p ∈ ps, p.Ok) : '|' ∉ altText ps := by
  simp only [altText, List.mem_flatMap, not_exists, not_and]
  intro p hp
  have := hok p hp
  cases p with
  | lit c =>
    simp only [Pos.Ok] at this
    simp only [Pos.text, List.mem_singleton]
    exact fun e => this.2.1 e.symm
  | grp items =>
    simp only [Pos.Ok] at this
    simp only [Pos.text, List.mem_append, List.mem_cons, List.mem_flatMap, List.not_mem_nil, or_false]
    rintro ((h | ⟨i, hi, h⟩) | h)
    · exact absurd h (by decide)
    · exact (itemText_ne i (this.2.1 i hi)).2.2 h
    · exact absurd h (by decide)

/-- C30: a well-formed description expands to exactly the described names, alternative by alternative, in
order, and without an error. -/
theorem C30_expansion (alts : List (List Pos)) (hne : alts ≠ []) (hpos : ∀ a ∈ alts, a ≠ [])
    (hok : ∀ a ∈ alts, ∀ p ∈ a, p.Ok) :
    registerOptions (descText alts) = ⟨(alts.flatMap names).map some, false⟩ := by
  have hd : descText alts ≠ [] := by
    obtain ⟨a, as, rfl⟩ := List.exists_cons_of_ne_nil hne
    have ha : altText a ≠ [] := fun h => hpos a (by simp) ((altText_eq_nil a).1 h)
    cases as with
    | nil => simpa [descText] using ha
    | cons b bs => simp [descText, List.intercalate, ha]
  unfold registerOptions
  rw [if_neg hd]
  unfold descText
  rw [List.splitOn_intercalate]
  · have : ∀ as : List (List Pos), (∀ a ∈ as, a ≠ []) → (∀ a ∈ as, ∀ p ∈ a, p.Ok) →
        Gen.forEach (as.map altText) (fun u => (⟨(alternative u.length u).vals.map some,
          (alternative u.length u).raises⟩ : Gen (Option (List Char)))) =
        ⟨(as.flatMap names).map some, false⟩ := by
      intro as h1 h2
      induction as with
      | nil => rfl
      | cons a as ih =>
        rw [List.map_cons, Gen.forEach, ih (fun x hx => h1 x (by simp [hx])) (fun x hx => h2 x (by simp [hx])),
          alternative_text a (h1 a (by simp)) (h2 a (by simp)) _ (Nat.le_refl _)]
        simp [Gen.append]
    rw [this alts hpos hok]
    rfl
  · intro l hl
    obtain ⟨a, ha, rfl⟩ := List.mem_map.1 hl
    exact altText_no_bar a (hok a ha)
  · simp [hne]

/-- C30: the names have one character per position, each from the choices of that position. -/
theorem C30_names (ps : List Pos) (w : List Char) :
    w ∈ names ps ↔ List.Forall₂ (fun (c : Char) (p : Pos) => c ∈ p.choices) w ps := by
  induction ps generalizing w with
  | nil => simp [names]
  | cons p ps ih =>
    simp only [names, List.mem_flatMap, List.mem_map]
    constructor
    · rintro ⟨c, hc, v, hv, rfl⟩
      exact List.Forall₂.cons hc ((ih v).1 hv)
    · intro h
      cases h with
      | cons hc hv => exact ⟨_, hc, _, (ih _).2 hv, rfl⟩

/-- C30: the empty description yields `None` and then fails. -/
theorem C30_empty_description : registerOptions [] = ⟨[none], true⟩ := by decide

/-- C30: an empty last alternative fails after all names of the others. -/
theorem C30_empty_alternative (alts : List (List Pos)) (hne : alts ≠ []) (hpos : ∀ a ∈ alts, a ≠ [])
    (hok : ∀ a ∈ alts, ∀ p ∈ a, p.Ok) :
    registerOptions (descText alts ++ ['|']) = ⟨(alts.flatMap names).map some, true⟩ := by
  have hd : descText alts ++ ['|'] = ['|'].intercalate (alts.map altText ++ [[]]) := by
    clear hpos hok
    induction alts with
    | nil => exact absurd rfl hne
    | cons a as ih =>
      cases as with
      | nil => simp [descText, List.intercalate]
      | cons b bs =>
        have := ih (by simp)
        simp only [descText, List.intercalate, List.map_cons, List.cons_append,
          List.intersperse_cons_cons, List.flatten_cons, List.append_assoc] at this ⊢
        rw [this]
  unfold registerOptions
  rw [if_neg (by simp), hd, List.splitOn_intercalate]
  · have : ∀ as : List (List Pos), (∀ a ∈ as, a ≠ []) → (∀ a ∈ as, ∀ p ∈ a, p.Ok) →
        Gen.forEach (as.map altText ++ [[]]) (fun u => (⟨(alternative u.length u).vals.map some,
          (alternative u.length u).raises⟩ : Gen (Option (List Char)))) =
        ⟨(as.flatMap names).map some, true⟩ := by
      intro as h1 h2
      induction as with
      | nil => rfl
      | cons a as ih =>
        rw [List.map_cons, List.cons_append, Gen.forEach,
          ih (fun x hx => h1 x (by simp [hx])) (fun x hx => h2 x (by simp [hx])),
          alternative_text a (h1 a (by simp)) (h2 a (by simp)) _ (Nat.le_refl _)]
        simp [Gen.append]
    rw [this alts hpos hok]
    rfl
  · intro l hl
    rcases List.mem_append.1 hl with hl | hl
    · obtain ⟨a, ha, rfl⟩ := List.mem_map.1 hl
      exact altText_no_bar a (hok a ha)
    · simp at hl; simp [hl]
  · simp

/-- `CBOX[0-1b]C|P`. -/
example : descText [[.lit 'C', .grp [.range '0' '1', .single 'b'], .lit 'C'], [.lit 'P']] =
    "C[0-1b]C|P".toList := by decide
example : registerOptions "C[0-1b]C|P".toList =
    ⟨["C0C".toList, "C1C".toList, "CbC".toList, "P".toList].map some, false⟩ := by decide
example : groupIter "0B-A1".toList = "01".toList := by decide

/-! ## C28 and C29 -/

section
variable {N D P R : Type} [DecidableEq N] [DecidableEq D] [DecidableEq P] [DecidableEq R]

theorem freeReg_some (used : List R) (g : Gen R) (r : R) (h : freeReg used g = .ok (some r)) :
    r ∈ g.vals ∧ r ∉ used := by
  unfold freeReg at h
  split at h
  · rename_i r' hf
    simp only [Except.ok.injEq, Option.some.injEq] at h
    subst h
    exact ⟨List.mem_of_find?_eq_some hf, by simpa using List.find?_some hf⟩
  · split at h <;> simp at h

theorem freeReg_none (used : List R) (g : Gen R) (h : freeReg used g = .ok none) :
    g.raises = false ∧ ∀ r ∈ g.vals, r ∈ used := by
  unfold freeReg at h
  split at h
  · simp at h
  · rename_i hf
    split at h
    · simp at h
    · rename_i hr
      refine ⟨by simpa using hr, ?_⟩
      rw [List.find?_eq_none] at hf
      intro r hr
      simpa using hf r hr

theorem planPass_spec (opts : D → Gen R) (es : List (Ev N D P)) (run : List (Ev N D P × R))
    (sched : List (Ev N D P)) (run' : List (Ev N D P × R)) (sched' : List (Ev N D P))
    (h : planPass opts es run sched = .ok (run', sched')) :
    ∃ new : List (Ev N D P × R), run' = run ++ new ∧ sched' = sched ++ new.map (·.1) ∧
      (∀ x ∈ new, x.1 ∈ es ∧ x.2 ∈ (opts x.1.regs).vals) ∧
      ((run.map (·.2)).Nodup → (run'.map (·.2)).Nodup) ∧
      (sched.Nodup → sched'.Nodup) ∧
      (∀ e ∈ es, e ∉ sched' → ∀ r ∈ (opts e.regs).vals, r ∈ run'.map (·.2)) := by
  induction es generalizing run sched with
  | nil =>
    simp only [planPass, Except.ok.injEq, Prod.mk.injEq] at h
    exact ⟨[], by simp [h.1], by simp [h.2], by simp, by simp [h.1], by simp [h.2], by simp⟩
  | cons e es ih =>
    rw [planPass] at h
    split at h
    · rename_i he
      obtain ⟨new, h1, h2, h3, h4, h5, h6⟩ := ih run sched h
      refine ⟨new, h1, h2, fun x hx => ⟨List.mem_cons_of_mem _ (h3 x hx).1, (h3 x hx).2⟩, h4, h5, ?_⟩
      intro e' he' hne r hr
      rcases List.mem_cons.1 he' with rfl | he'
      · exact absurd (by rw [h2]; exact List.mem_append_left _ he) hne
      · exact h6 e' he' hne r hr
    · rename_i he
      split at h
      · simp at h
      · rename_i hf
        obtain ⟨new, h1, h2, h3, h4, h5, h6⟩ := ih run sched h
        refine ⟨new, h1, h2, fun x hx => ⟨List.mem_cons_of_mem _ (h3 x hx).1, (h3 x hx).2⟩, h4, h5, ?_⟩
        intro e' he' hne r hr
        rcases List.mem_cons.1 he' with rfl | he'
        · rw [h1, List.map_append]
          exact List.mem_append_left _ ((freeReg_none _ _ hf).2 r hr)
        · exact h6 e' he' hne r hr
      · rename_i r0 hf
        obtain ⟨hr1, hr2⟩ := freeReg_some _ _ _ hf
        obtain ⟨new, h1, h2, h3, h4, h5, h6⟩ := ih _ _ h
        refine ⟨(e, r0) :: new, by simp [h1], by simp [h2], ?_, ?_, ?_, ?_⟩
        · intro x hx
          rcases List.mem_cons.1 hx with rfl | hx
          · exact ⟨by simp, hr1⟩
          · exact ⟨List.mem_cons_of_mem _ (h3 x hx).1, (h3 x hx).2⟩
        · intro hnd
          apply h4
          rw [List.map_append, List.nodup_append]
          refine ⟨hnd, by simp, ?_⟩
          intro a ha b hb
          simp only [List.map_cons, List.map_nil, List.mem_singleton] at hb
          rintro rfl
          exact hr2 (hb ▸ ha)
        · intro hnd
          apply h5
          rw [List.nodup_append]
          refine ⟨hnd, by simp, ?_⟩
          intro a ha b hb
          simp only [List.mem_singleton] at hb
          rintro rfl
          exact he (hb ▸ ha)
        · intro e' he' hne r hr
          rcases List.mem_cons.1 he' with rfl | he'
          · exact absurd (by rw [h2]; simp) hne
          · exact h6 e' he' hne r hr

/-- Invariant of the planner loop. -/
structure PlanInv (opts : D → Gen R) (events : List (Ev N D P)) (runs : List (List (Ev N D P × R)))
    (sched : List (Ev N D P)) : Prop where
  all : sched = runs.flatten.map (·.1)
  nodup : sched.Nodup
  sub : ∀ e ∈ sched, e ∈ events
  option : ∀ x ∈ runs.flatten, x.2 ∈ (opts x.1.regs).vals
  regs : ∀ run ∈ runs, (run.map (·.2)).Nodup ∧ run ≠ []
  waiting : ∀ run ∈ runs, ∀ e ∈ events, e ∉ sched → ∀ r ∈ (opts e.regs).vals, r ∈ run.map (·.2)
  greedy : runs.Pairwise (fun run later => ∀ x ∈ later, ∀ r ∈ (opts x.1.regs).vals, r ∈ run.map (·.2))

theorem PlanInv.step (opts : D → Gen R) (events : List (Ev N D P)) (runs : List (List (Ev N D P × R)))
    (sched : List (Ev N D P)) (hi : PlanInv opts events runs sched) (run : List (Ev N D P × R))
    (sched' : List (Ev N D P)) (h : planPass opts events [] sched = .ok (run, sched')) :
    PlanInv opts events (if run = [] then runs else runs ++ [run]) sched' := by
  obtain ⟨new, h1, h2, h3, h4, h5, h6⟩ := planPass_spec opts events [] sched run sched' h
  simp only [List.nil_append] at h1
  subst h1
  have hnd := h5 hi.nodup
  have hnotsched : ∀ x ∈ run, x.1 ∉ sched := by
    intro x hx hs
    rw [h2, List.nodup_append] at hnd
    exact hnd.2.2 _ hs _ (List.mem_map_of_mem hx) rfl
  have hsub : ∀ e ∈ sched', e ∈ events := by
    intro e he
    rw [h2] at he
    rcases List.mem_append.1 he with he | he
    · exact hi.sub e he
    · obtain ⟨x, hx, rfl⟩ := List.mem_map.1 he
      exact (h3 x hx).1
  have hmono : ∀ e, e ∉ sched' → e ∉ sched := fun e he hs => he (by rw [h2]; exact List.mem_append_left _ hs)
  by_cases hr : run = []
  · subst hr
    simp only [List.map_nil, List.append_nil] at h2
    subst h2
    simpa using hi
  · rw [if_neg hr]
    refine ⟨?_, hnd, hsub, ?_, ?_, ?_, ?_⟩
    · rw [h2, hi.all]; simp
    · intro x hx
      simp only [List.flatten_append, List.flatten_cons, List.flatten_nil, List.append_nil,
        List.mem_append] at hx
      rcases hx with hx | hx
      · exact hi.option x hx
      · exact (h3 x hx).2
    · intro r hr'
      rcases List.mem_append.1 hr' with hr' | hr'
      · exact hi.regs r hr'
      · simp only [List.mem_singleton] at hr'
        subst hr'
        exact ⟨h4 (by simp), hr⟩
    · intro r hr' e he hne
      rcases List.mem_append.1 hr' with hr' | hr'
      · exact hi.waiting r hr' e he (hmono e hne)
      · simp only [List.mem_singleton] at hr'
        subst hr'
        exact h6 e he hne
    · rw [List.pairwise_append]
      refine ⟨hi.greedy, by simp, ?_⟩
      intro r hr' r2 hr2 x hx
      simp only [List.mem_singleton] at hr2
      subst hr2
      exact hi.waiting r hr' x.1 (h3 x hx).1 (hnotsched x hx)

theorem planLoop_inv (opts : D → Gen R) (events : List (Ev N D P)) (fuel : Nat)
    (runs : List (List (Ev N D P × R))) (sched : List (Ev N D P)) (hi : PlanInv opts events runs sched)
    (res : List (List (Ev N D P × R))) (h : planLoop opts events fuel runs sched = some (.ok res)) :
    ∃ sched', PlanInv opts events res sched' ∧ sched'.length = events.length := by
  induction fuel generalizing runs sched with
  | zero =>
    rw [planLoop] at h
    split at h
    · rename_i hl
      simp only [Option.some.injEq, Except.ok.injEq] at h
      subst h
      exact ⟨sched, hi, hl⟩
    · simp at h
  | succ fuel ih =>
    rw [planLoop] at h
    split at h
    · rename_i hl
      simp only [Option.some.injEq, Except.ok.injEq] at h
      subst h
      exact ⟨sched, hi, hl⟩
    · split at h
      · simp at h
      · rename_i run sched' hp
        exact ih _ _ (hi.step opts events runs sched run sched' hp) h

omit [DecidableEq N] [DecidableEq D] [DecidableEq P] [DecidableEq R] in
theorem planInv_nil (opts : D → Gen R) (events : List (Ev N D P)) : PlanInv opts events [] [] :=
  ⟨rfl, by simp, by simp, by simp, by simp, by simp, by simp⟩

theorem mem_dedupe {α : Type} [DecidableEq α] (seen l : List α) (a : α) :
    a ∈ dedupe seen l ↔ a ∈ l ∧ a ∉ seen := by
  induction l generalizing seen with
  | nil => simp [dedupe]
  | cons b l ih =>
    rw [dedupe]
    split
    · rename_i h
      rw [ih]
      constructor
      · tauto
      · rintro ⟨h1, h2⟩
        rcases List.mem_cons.1 h1 with rfl | h1
        · exact absurd h h2
        · exact ⟨h1, h2⟩
    · rename_i h
      simp only [List.mem_cons, ih, not_or]
      constructor
      · rintro (rfl | h')
        · exact ⟨Or.inl rfl, h⟩
        · exact ⟨Or.inr h'.1, h'.2.2⟩
      · rintro ⟨h1 | h1, h2⟩
        · exact Or.inl h1
        · by_cases hab : a = b
          · exact Or.inl hab
          · exact Or.inr ⟨h1, hab, h2⟩

theorem nodup_dedupe {α : Type} [DecidableEq α] (seen l : List α) : (dedupe seen l).Nodup := by
  induction l generalizing seen with
  | nil => simp [dedupe]
  | cons b l ih =>
    rw [dedupe]
    split
    · exact ih seen
    · rw [List.nodup_cons]
      refine ⟨?_, ih _⟩
      rw [mem_dedupe]
      simp

/-- What C28 demands of a list of runs: it comes from an assignment of registers to event tuples in which each
requested event tuple occurs exactly once, each in one of its registers, and no run uses a register twice. -/
def ValidPlan (opts : D → Gen R) (events : List (Ev N D P)) (runs : List (List (N × R × P)))
    (plan : List (List (Ev N D P × R))) : Prop :=
  runs = plan.map (fun run => run.map fun x => (x.1.name, x.2, x.1.params)) ∧
  (∀ e, (plan.flatten.map (·.1)).count e = if e ∈ events then 1 else 0) ∧
  (∀ x ∈ plan.flatten, x.2 ∈ (opts x.1.regs).vals) ∧
  (∀ run ∈ plan, (run.map (·.2)).Nodup)

theorem buildRuns_inv (opts : D → Gen R) (events : List (Ev N D P)) (fuel : Nat)
    (runs : List (List (N × R × P))) (h : buildRuns opts events fuel = some (.ok runs)) :
    ∃ plan sched, PlanInv opts (dedupe [] events) plan sched ∧
      sched.length = (dedupe [] events).length ∧
      runs = plan.map (fun run => run.map fun x => (x.1.name, x.2, x.1.params)) := by
  unfold buildRuns at h
  rw [Option.map_eq_some_iff] at h
  obtain ⟨res, h1, h2⟩ := h
  cases res with
  | error x => simp at h2
  | ok res =>
    simp only [Except.ok.injEq] at h2
    obtain ⟨sched, hi, hl⟩ := planLoop_inv opts _ fuel [] [] (planInv_nil _ _) res h1
    exact ⟨res, sched, hi, hl, h2.symm⟩

omit [DecidableEq N] [DecidableEq D] [DecidableEq P] [DecidableEq R] in
theorem planInv_perm (opts : D → Gen R) (events : List (Ev N D P)) (plan : List (List (Ev N D P × R)))
    (sched : List (Ev N D P)) (hi : PlanInv opts events plan sched) (hl : sched.length = events.length) :
    sched.Perm events :=
  (hi.nodup.subperm hi.sub).perm_of_length_le (by omega)

/-- C28: whenever the planner returns, its runs are a valid plan; in addition no event was put into a later
run while one of its registers was free in an earlier one. -/
theorem C28_valid_plan (opts : D → Gen R) (events : List (Ev N D P)) (fuel : Nat)
    (runs : List (List (N × R × P))) (h : buildRuns opts events fuel = some (.ok runs)) :
    ∃ plan, ValidPlan opts events runs plan ∧
      plan.Pairwise (fun run later => ∀ x ∈ later, ∀ r ∈ (opts x.1.regs).vals, r ∈ run.map (·.2)) := by
  obtain ⟨plan, sched, hi, hl, hr⟩ := buildRuns_inv opts events fuel runs h
  have hperm := planInv_perm _ _ _ _ hi hl
  refine ⟨plan, ⟨hr, ?_, hi.option, fun run hrun => (hi.regs run hrun).1⟩, hi.greedy⟩
  intro e
  rw [← hi.all, hperm.count_eq]
  by_cases he : e ∈ events
  · rw [if_pos he]
    exact List.count_eq_one_of_mem (nodup_dedupe _ _) ((mem_dedupe _ _ _).2 ⟨he, by simp⟩)
  · rw [if_neg he, List.count_eq_zero]
    intro h
    exact he ((mem_dedupe _ _ _).1 h).1

theorem planPass_progress (opts : D → Gen R) (es : List (Ev N D P)) (run : List (Ev N D P × R))
    (sched : List (Ev N D P)) (hopt : ∀ e ∈ es, (opts e.regs).raises = false) :
    ∃ run' sched', planPass opts es run sched = .ok (run', sched') := by
  induction es generalizing run sched with
  | nil => exact ⟨_, _, rfl⟩
  | cons e es ih =>
    rw [planPass]
    have hes := fun x hx => hopt x (List.mem_cons_of_mem _ hx)
    split
    · exact ih _ _ hes
    · split
      · rename_i x hf
        unfold freeReg at hf
        rw [hopt e (by simp)] at hf
        split at hf <;> simp at hf
      · exact ih _ _ hes
      · exact ih _ _ hes

/-- A pass over events of which one is not scheduled yet and has a register schedules something. -/
theorem planPass_schedules (opts : D → Gen R) (es : List (Ev N D P)) (sched : List (Ev N D P))
    (run' : List (Ev N D P × R)) (sched' : List (Ev N D P))
    (h : planPass opts es [] sched = .ok (run', sched')) (e : Ev N D P) (he : e ∈ es) (hne : e ∉ sched)
    (hv : (opts e.regs).vals ≠ []) : sched.length < sched'.length := by
  obtain ⟨new, h1, h2, _, _, _, h6⟩ := planPass_spec opts es [] sched run' sched' h
  rw [h2, List.length_append, List.length_map]
  by_contra hc
  have hnew : new = [] := List.length_eq_zero_iff.1 (by omega)
  subst hnew
  simp only [List.nil_append] at h1
  simp only [List.map_nil, List.append_nil] at h2
  obtain ⟨r, rs, hr⟩ := List.exists_cons_of_ne_nil hv
  have := h6 e he (by rw [h2]; exact hne) r (by rw [hr]; simp)
  rw [h1] at this
  simp at this

theorem exists_unscheduled {α : Type} (events sched : List α) (hnd : events.Nodup)
    (hl : sched.length < events.length) : ∃ e ∈ events, e ∉ sched := by
  by_contra hc
  have : ∀ e ∈ events, e ∈ sched := by
    intro e he
    by_contra h
    exact hc ⟨e, he, h⟩
  have := (hnd.subperm this).length_le
  omega

omit [DecidableEq N] [DecidableEq D] [DecidableEq P] [DecidableEq R] in
theorem planInv_length_le (opts : D → Gen R) (events : List (Ev N D P)) (plan : List (List (Ev N D P × R)))
    (sched : List (Ev N D P)) (hi : PlanInv opts events plan sched) : sched.length ≤ events.length :=
  (hi.nodup.subperm hi.sub).length_le

theorem planLoop_terminates (opts : D → Gen R) (events : List (Ev N D P)) (hnd : events.Nodup)
    (hopt : ∀ e ∈ events, (opts e.regs).raises = false ∧ (opts e.regs).vals ≠ []) (fuel : Nat)
    (runs : List (List (Ev N D P × R))) (sched : List (Ev N D P)) (hi : PlanInv opts events runs sched)
    (hf : events.length ≤ fuel + sched.length) :
    ∃ res, planLoop opts events fuel runs sched = some (.ok res) := by
  induction fuel generalizing runs sched with
  | zero =>
    have := planInv_length_le _ _ _ _ hi
    rw [planLoop, if_pos (by omega)]
    exact ⟨_, rfl⟩
  | succ fuel ih =>
    rw [planLoop]
    split
    · exact ⟨_, rfl⟩
    · rename_i hl
      have hle := planInv_length_le _ _ _ _ hi
      obtain ⟨e, he, hne⟩ := exists_unscheduled events sched hnd (by omega)
      obtain ⟨run', sched', hp⟩ := planPass_progress opts events [] sched (fun e he => (hopt e he).1)
      have := planPass_schedules opts events sched run' sched' hp e he hne (hopt e he).2
      simp only [hp]
      exact ih _ _ (hi.step opts events runs sched run' sched' hp) (by omega)

theorem length_le_flatten {α : Type} (l : List (List α)) (h : ∀ x ∈ l, x ≠ []) :
    l.length ≤ l.flatten.length := by
  induction l with
  | nil => simp
  | cons x l ih =>
    have hx := List.length_pos_iff.2 (h x (by simp))
    have := ih (fun y hy => h y (by simp [hy]))
    simp only [List.length_cons, List.flatten_cons, List.length_append]
    omega

/-- C29: if every description is valid and names at least one register, the planner returns after at most as
many passes as there are requests, and the number of runs does not exceed the number of distinct events. -/
theorem C29_terminates (opts : D → Gen R) (events : List (Ev N D P))
    (hopt : ∀ e ∈ events, (opts e.regs).raises = false ∧ (opts e.regs).vals ≠ []) :
    ∃ runs, buildRuns opts events events.length = some (.ok runs) ∧
      ∀ distinct : List (Ev N D P), (∀ e ∈ events, e ∈ distinct) → runs.length ≤ distinct.length := by
  have hsub : ∀ e ∈ dedupe [] events, e ∈ events := fun e he => ((mem_dedupe _ _ _).1 he).1
  have hlen : (dedupe [] events).length ≤ events.length :=
    ((nodup_dedupe [] events).subperm hsub).length_le
  obtain ⟨res, hres⟩ := planLoop_terminates opts (dedupe [] events) (nodup_dedupe _ _)
    (fun e he => hopt e (hsub e he)) events.length [] [] (planInv_nil _ _) (by simpa using hlen)
  have hb : buildRuns opts events events.length = some (.ok
      (res.map (fun run => run.map fun x => (x.1.name, x.2, x.1.params)))) := by
    unfold buildRuns; rw [hres]; rfl
  refine ⟨_, hb, ?_⟩
  intro distinct hd
  obtain ⟨sched, hi, hl⟩ := planLoop_inv opts _ _ [] [] (planInv_nil _ _) res hres
  rw [List.length_map]
  have h1 := length_le_flatten res (fun x hx => (hi.regs x hx).2)
  have h2 : res.flatten.length = sched.length := by rw [hi.all, List.length_map]
  have h3 := ((nodup_dedupe [] events).subperm (fun e he => hd e (hsub e he))).length_le
  omega

/-- C29: if one of the events has no possible register, the planner never returns a plan. -/
theorem C29_no_register_never_returns (opts : D → Gen R) (events : List (Ev N D P)) (e : Ev N D P)
    (he : e ∈ events) (hno : (opts e.regs).vals = []) (fuel : Nat) (runs : List (List (N × R × P))) :
    buildRuns opts events fuel ≠ some (.ok runs) := by
  intro h
  obtain ⟨plan, sched, hi, hl, _⟩ := buildRuns_inv opts events fuel runs h
  have hperm := planInv_perm _ _ _ _ hi hl
  have : e ∈ sched := hperm.mem_iff.2 ((mem_dedupe _ _ _).2 ⟨he, by simp⟩)
  rw [hi.all] at this
  obtain ⟨x, hx, rfl⟩ := List.mem_map.1 this
  have := hi.option x hx
  rw [hno] at this
  simp at this

/-- C29: and if all descriptions are valid, it runs forever. -/
theorem C29_no_register_runs_forever (opts : D → Gen R) (events : List (Ev N D P)) (e : Ev N D P)
    (he : e ∈ events) (hno : (opts e.regs).vals = [])
    (hopt : ∀ e ∈ events, (opts e.regs).raises = false) (fuel : Nat) :
    buildRuns opts events fuel = none := by
  cases hb : buildRuns opts events fuel with
  | none => rfl
  | some res =>
    exfalso
    cases res with
    | ok runs => exact C29_no_register_never_returns opts events e he hno fuel runs hb
    | error x =>
      unfold buildRuns at hb
      rw [Option.map_eq_some_iff] at hb
      obtain ⟨res, h1, h2⟩ := hb
      cases res with
      | ok res => simp at h2
      | error y =>
        clear h2
        have hopt' : ∀ e ∈ dedupe [] events, (opts e.regs).raises = false :=
          fun e he => hopt e ((mem_dedupe _ _ _).1 he).1
        have key : ∀ (fuel : Nat) (runs : List (List (Ev N D P × R))) (sched : List (Ev N D P)),
            planLoop opts (dedupe [] events) fuel runs sched ≠ some (.error y) := by
          intro fuel
          induction fuel with
          | zero => intro runs sched h; rw [planLoop] at h; split at h <;> simp at h
          | succ fuel ih =>
            intro runs sched h
            rw [planLoop] at h
            split at h
            · simp at h
            · obtain ⟨run', sched', hp⟩ := planPass_progress opts (dedupe [] events) [] sched hopt'
              simp only [hp] at h
              exact ih _ _ h
        exact key _ _ _ h1

end

/-- C28 and C29 with the register descriptions of the machine file: events whose descriptions follow the
grammar and whose groups are not empty are always planned. -/
theorem C29_described_events (events : List (Ev (List Char) (List Char) (List (List Char))))
    (alts : List Char → List (List Pos))
    (hd : ∀ e ∈ events, e.regs = descText (alts e.regs) ∧ alts e.regs ≠ [] ∧
      (∀ a ∈ alts e.regs, a ≠ []) ∧ (∀ a ∈ alts e.regs, ∀ p ∈ a, p.Ok) ∧
      ∃ a ∈ alts e.regs, ∀ p ∈ a, p.choices ≠ []) :
    ∃ runs, buildRuns registerOptions events events.length = some (.ok runs) := by
  have hnames : ∀ ps : List Pos, (∀ p ∈ ps, p.choices ≠ []) → names ps ≠ [] := by
    intro ps
    induction ps with
    | nil => simp [names]
    | cons p ps ih =>
      intro h
      have h1 := h p (by simp)
      have h2 := ih (fun q hq => h q (by simp [hq]))
      obtain ⟨c, cs, hc⟩ := List.exists_cons_of_ne_nil h1
      simp [names, hc, h2]
  obtain ⟨runs, h, _⟩ := C29_terminates registerOptions events (by
    intro e he
    obtain ⟨h1, h2, h3, h4, a, ha, h5⟩ := hd e he
    rw [h1, C30_expansion _ h2 h3 h4]
    refine ⟨rfl, ?_⟩
    intro hnil
    simp only [List.map_eq_nil_iff, List.flatMap_eq_nil_iff] at hnil
    exact hnames a h5 (hnil a ha))
  exact ⟨runs, h⟩

/-- Events 0 and 2 on registers 0 and 1, event 1 on register 0 only; a repeated request. Two runs are needed,
the repeated event is planned once. -/
example : (buildRuns (fun d : List Nat => (⟨d, false⟩ : Gen Nat))
    [(⟨0, [0, 1], ()⟩ : Ev Nat (List Nat) Unit), ⟨1, [0], ()⟩, ⟨0, [0, 1], ()⟩, ⟨2, [0, 1], ()⟩] 4).map
      Except.toOption = some (some [[(0, 0, ()), (2, 1, ())], [(1, 0, ())]]) := by decide +kernel
/-- A reversed range describes no register. -/
example : (registerOptions "P[3-0]".toList) = ⟨[], false⟩ := by decide
/-- Two events without register: the second one makes the planner fail. -/
example : (buildRuns registerOptions
    [(⟨0, [], ()⟩ : Ev Nat (List Char) Unit), ⟨1, [], ()⟩] 2).map (·.toOption.isSome) = some false := by
  decide +kernel

/-! ## C32 -/

section
variable {K V : Type} [DecidableEq K]

theorem leaveFix_self (name : K) (orig : Option V) (e : Env K V) : leaveFix name orig e name = orig := by
  unfold leaveFix
  cases orig with
  | some v => simp [Env.set]
  | none =>
    simp only
    split
    · simp [Env.set]
    · rename_i h; simpa using h

theorem leaveFix_other (name : K) (orig : Option V) (e : Env K V) (k : K) (hk : k ≠ name) :
    leaveFix name orig e k = e k := by
  unfold leaveFix
  split
  · simp [Env.set, hk]
  · split
    · simp [Env.set, hk]
    · rfl

/-- C32: after the wrapped block the variable is as before, for every block, returning or raising. -/
theorem C32_restored (accepts : K → V → Bool) (name : K) (value : Option V) (body : Prog K V)
    (e : Env K V) : ((Prog.fix name value body).run accepts e).1 name = e name := by
  rw [Prog.run]
  split
  · rfl
  · exact leaveFix_self _ _ _

/-- C32: inside the block the variable has the requested value (or is absent), all other variables are
unchanged; the wrapper changes no other variable when leaving and lets exceptions pass. -/
theorem C32_fixed_inside (accepts : K → V → Bool) (name : K) (value : Option V)
    (hacc : ∀ v, value = some v → accepts name v = true) (body : Prog K V) (e : Env K V) :
    ∃ e1, e1 name = value ∧ (∀ k, k ≠ name → e1 k = e k) ∧
      ((Prog.fix name value body).run accepts e).2 = (body.run accepts e1).2 ∧
      ∀ k, k ≠ name → ((Prog.fix name value body).run accepts e).1 k = (body.run accepts e1).1 k := by
  have hin : ∃ e1 : Env K V, e1 name = value ∧ (∀ k, k ≠ name → e1 k = e k) ∧
      enterFix accepts name value e = some e1 := by
    unfold enterFix
    cases value with
    | some v =>
      refine ⟨e.set name (some v), by simp [Env.set], fun k hk => by simp [Env.set, hk], ?_⟩
      simp [hacc v rfl]
    | none =>
      by_cases hs : (e name).isSome
      · exact ⟨e.set name none, by simp [Env.set], fun k hk => by simp [Env.set, hk], by simp [hs]⟩
      · exact ⟨e, by simpa using hs, fun _ _ => rfl, by simp [hs]⟩
  obtain ⟨e1, h1, h2, h3⟩ := hin
  refine ⟨e1, h1, h2, ?_, ?_⟩
  · conv_lhs => rw [Prog.run, h3]
  · intro k hk
    conv_lhs => rw [Prog.run, h3]
    exact leaveFix_other _ _ _ _ hk

/-- C32: a value that cannot be set leaves everything as it was, the block is not run. -/
theorem C32_rejected_value (accepts : K → V → Bool) (name : K) (v : V) (h : accepts name v = false)
    (body : Prog K V) (e : Env K V) : (Prog.fix name (some v) body).run accepts e = (e, true) := by
  rw [Prog.run]
  simp [enterFix, h]

/-- Programs that change a given variable only through the wrapper. -/
def OnlyFixes (k : K) : Prog K V → Prop
  | .skip => True
  | .raise => True
  | .change f => ∀ e, f e k = e k
  | .seq a b => OnlyFixes k a ∧ OnlyFixes k b
  | .branch _ a b => OnlyFixes k a ∧ OnlyFixes k b
  | .tryExcept a h => OnlyFixes k a ∧ OnlyFixes k h
  | .fix n _ b => n = k ∨ OnlyFixes k b

/-- C32, nested: any program that touches a variable only through (arbitrarily nested) wrappers, with any
exceptions and handlers, leaves it as it was; below a wrapper for the variable itself even arbitrary changes
are allowed. -/
theorem C32_nested (accepts : K → V → Bool) (k : K) (p : Prog K V) (hp : OnlyFixes k p) (e : Env K V) :
    (p.run accepts e).1 k = e k := by
  induction p generalizing e with
  | skip => rfl
  | raise => rfl
  | change f => exact hp e
  | seq a b iha ihb =>
    unfold Prog.run
    simp only
    split
    · exact iha hp.1 e
    · rw [ihb hp.2, iha hp.1]
  | branch c a b iha ihb =>
    unfold Prog.run
    split
    · exact iha hp.1 e
    · exact ihb hp.2 e
  | tryExcept a h iha ihb =>
    unfold Prog.run
    simp only
    split
    · rw [ihb hp.2, iha hp.1]
    · exact iha hp.1 e
  | fix n v b ih =>
    by_cases hn : n = k
    · subst hn; exact C32_restored accepts n v b e
    · rcases hp with h | h
      · exact absurd h hn
      · by_cases hacc : ∀ w, v = some w → accepts n w = true
        · obtain ⟨e1, _, h2, _, h4⟩ := C32_fixed_inside accepts n v hacc b e
          rw [h4 k (fun e => hn e.symm), ih h, h2 k (fun e => hn e.symm)]
        · have : ∃ w, v = some w ∧ accepts n w = false := by
            by_contra hc
            apply hacc
            intro w hw
            by_contra h'
            exact hc ⟨w, hw, by simpa using h'⟩
          obtain ⟨w, rfl, hw⟩ := this
          rw [C32_rejected_value accepts n w hw]

end

/-- The body overwrites the variable and raises; the variable is absent again afterwards. -/
example : let p : Prog Nat Nat := .fix 1 (some 5) (.seq (.change fun e => (e.set 1 (some 9)).set 2 (some 3)) .raise)
    let r := p.run (fun _ _ => true) (fun _ => none)
    r.1 1 = none ∧ r.1 2 = some 3 ∧ r.2 = true := by decide

end Verif.Bench
