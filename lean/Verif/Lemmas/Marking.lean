import Verif.Model.Marking
import Verif.Spec.Answers
import Verif.Lemmas.PerfOut
import Verif.Props.Asm

/-!
Lemmas on `asm_instrumentation`.
-/

namespace Verif.Marking

open Verif.Text Verif.Answers

/-! ### Answers -/

theorem parseDigits_none (s : List Char) (c : Char) (hc : c ∈ s) (h1 : isDigit c = false) (h2 : c ≠ '_') : ∀ acc b, parseDigits acc b s = none := by
  induction s with
  | nil => simp at hc
  | cons d s ih =>
    intro acc b
    unfold parseDigits
    rcases List.mem_cons.1 hc with rfl | hc
    · rw [if_neg (by simp [h1]), if_neg (by simp [h2])]
    · split
      · exact ih hc _ _
      · split
        · exact ih hc _ _
        · rfl

theorem parseInt_none (s : List Char) (c : Char) (hc : c ∈ s) (h1 : isDigit c = false) (h2 : c ∉ ['+', '-', '_']) : parseInt s = none := by
  simp only [List.mem_cons, List.not_mem_nil, or_false, not_or] at h2
  unfold parseInt
  split
  · rw [parseDigits_none _ c _ h1 h2.2.2, Option.map_none]
    exact (List.mem_cons.1 hc).resolve_left h2.2.1
  · rw [parseDigits_none _ c _ h1 h2.2.2, Option.map_none]
    exact (List.mem_cons.1 hc).resolve_left h2.1
  · rw [parseDigits_none _ c hc h1 h2.2.2, Option.map_none]

theorem mem_strip_of (s : List Char) (c : Char) (hc : c ∈ s) (h : isSpace c = false) : c ∈ strip s := by
  have hd : ∀ t : List Char, c ∈ t → c ∈ t.dropWhile isSpace := by
    intro t
    induction t with
    | nil => simp
    | cons d t ih =>
      intro hm
      rw [List.dropWhile_cons]
      split
      · next hsp =>
        rcases List.mem_cons.1 hm with rfl | hm
        · simp [h] at hsp
        · exact ih hm
      · exact hm
  unfold strip
  exact List.mem_reverse.2 (hd _ (List.mem_reverse.2 (hd _ hc)))

theorem read_noNumber (a : List Char) (h : NoNumber a) : parseInt (strip a) = none := by
  rcases h with rfl | ⟨c, hc, h1, h2, h3⟩
  · decide
  · exact parseInt_none _ c (mem_strip_of a c hc h1) h2 h3

theorem read_number (n : Int) (a : List Char) (h : Number n a) : parseInt (strip a) = some n := by
  obtain ⟨p, q, rfl, hp, hq⟩ := h
  rw [BenchRun.strip_spaces p (showInt n) q hp hq (showInt_ne_nil n)
    (fun c hc => showInt_not_space n c (List.mem_of_mem_head? hc))
    (fun c hc => showInt_not_space n c (List.mem_of_getLast? hc)), parseInt_showInt]

theorem askIncr_default (n : Int) (a : List Char) (as : List (List Char)) (h : NoNumber a) : askIncr (some n) (a :: as) = .ok (n, as) := by
  unfold askIncr
  rw [read_noNumber a h]

theorem askIncr_number (d : Option Int) (n : Int) (a : List Char) (as : List (List Char)) (h : Number n a) : askIncr d (a :: as) = .ok (n, as) := by
  unfold askIncr
  rw [read_number n a h]

theorem askIncr_skip (bad : List (List Char)) (as : List (List Char)) (h : ∀ x ∈ bad, NoNumber x) : askIncr none (bad ++ as) = askIncr none as := by
  induction bad with
  | nil => rfl
  | cons x bad ih =>
    rw [List.cons_append]
    conv_lhs => unfold askIncr
    rw [read_noNumber x (h x (by simp))]
    exact ih fun y hy => h y (by simp [hy])

theorem askBlock_skip (labels : List (List Char)) (d : List Char) (bad as : List (List Char)) (h : ∀ x ∈ bad, x ≠ [] ∧ x ∉ labels) :
    askBlock labels d (bad ++ as) = askBlock labels d as := by
  induction bad with
  | nil => rfl
  | cons x bad ih =>
    rw [List.cons_append]
    conv_lhs => unfold askBlock
    obtain ⟨h1, h2⟩ := h x (by simp)
    simp only [h1, if_false, List.contains_iff_mem, h2]
    exact ih fun y hy => h y (by simp [hy])

/-! ### The comment -/

/-- The text before the increment. -/
def key : List Char := "pointer_increment=".toList

theorem comment_key (n : Int) (hash : List Char) : comment n hash = key ++ showInt n ++ ' ' :: hash := rfl

theorem key_overlap : ∀ n < key.length, 0 < n → (key.drop n).isPrefixOf key = false := by decide

theorem key_first (u t : List Char) (hu : u ≠ []) (hk : ¬ key <:+: u) : key.isPrefixOf (u ++ (key ++ t)) = false := by
  by_contra hp
  rw [Bool.not_eq_false, List.isPrefixOf_iff_prefix] at hp
  rcases Nat.lt_or_ge u.length key.length with hl | hl
  · have hpre : u <+: key := List.prefix_of_prefix_length_le (List.prefix_append u _) hp hl.le
    obtain ⟨k, hk'⟩ := hpre
    have hd : key.drop u.length = k := by rw [← hk', List.drop_left]
    have h2 : k <+: key ++ t := by
      have : u ++ k <+: u ++ (key ++ t) := by rw [hk']; exact hp
      exact (List.prefix_append_right_inj u).1 this
    have h3 : k <+: key := List.prefix_of_prefix_length_le h2 (List.prefix_append key t) (by rw [← hd, List.length_drop]; omega)
    have := key_overlap u.length hl (List.length_pos_iff.2 hu)
    rw [hd, ← Bool.not_eq_true, List.isPrefixOf_iff_prefix] at this
    exact this h3
  · exact hk (List.prefix_of_prefix_length_le hp (List.prefix_append u _) hl).isInfix

theorem search_here (t : List Char) : searchIncr (key ++ t) = match t.takeWhile isDigit with
    | d :: ds => some (d :: ds)
    | [] => searchIncr ((key ++ t).drop 1) := by
  have h1 : key ++ t = 'p' :: (key.drop 1 ++ t) := rfl
  have h2 : "pointer_increment=".toList.isPrefixOf (key ++ t) = true := List.isPrefixOf_iff_prefix.2 (List.prefix_append _ _)
  have h3 : (key ++ t).drop "pointer_increment=".length = t := rfl
  rw [h1] at h2 h3 ⊢
  conv_lhs => unfold searchIncr
  rw [h2, h3]
  cases t.takeWhile isDigit <;> rfl

theorem search_at (u ds rest : List Char) (hk : ¬ key <:+: u) (hne : ds ≠ []) (hd : ∀ c ∈ ds, isDigit c = true)
    (hr : ∀ c ∈ rest.head?, isDigit c = false) : searchIncr (u ++ (key ++ (ds ++ rest))) = some ds := by
  induction u with
  | nil =>
    rw [List.nil_append, search_here]
    rw [(Units.takeWhile_digits ds rest hd hr).1]
    cases ds with
    | nil => simp at hne
    | cons d ds => rfl
  | cons c u ih =>
    rw [List.cons_append]
    conv_lhs => unfold searchIncr
    have h1 := key_first (c :: u) (ds ++ rest) (by simp) hk
    rw [List.cons_append] at h1
    have h2 : "pointer_increment=".toList = key := rfl
    rw [h2, h1]
    exact ih fun h => hk (h.trans (List.suffix_cons c u).isInfix)

theorem key_lines {L : Type} (text : L → List Char) (ls : List L) (h : ∀ l ∈ ls, ¬ key <:+: text l) (a : List Char)
    (ha : ¬ key <:+: a) : ¬ key <:+: (ls.flatMap fun l => text l ++ ['\n']) ++ a := by
  induction ls with
  | nil => simpa using ha
  | cons l ls ih =>
    have ih := ih fun x hx => h x (by simp [hx])
    rintro ⟨s, t, hst⟩
    rw [List.flatMap_cons, List.append_assoc, List.append_assoc] at hst
    generalize hr : ((ls.flatMap fun l => text l ++ ['\n']) ++ a) = r at hst ih
    -- the text with the key ends before the newline, or begins after it
    have hst' : (s ++ key) ++ t = text l ++ ('\n' :: r) := by simpa using hst
    rcases Nat.lt_or_ge (text l).length (s ++ key).length with hl | hl
    · obtain ⟨k, hk⟩ := List.prefix_of_prefix_length_le (List.prefix_append (text l) ('\n' :: r)) (hst' ▸ List.prefix_append (s ++ key) t) hl.le
      rw [← hk, List.append_assoc] at hst'
      have e := List.append_cancel_left hst'
      cases k with
      | nil => simp [← hk] at hl
      | cons x k =>
        simp only [List.cons_append, List.cons.injEq] at e
        obtain ⟨rfl, e⟩ := e
        -- `\n` is not in the key, so it is in `s`
        rcases Nat.lt_or_ge (text l).length s.length with hs | hs
        · obtain ⟨k2, hk2⟩ := List.prefix_of_prefix_length_le (hk ▸ List.prefix_append (text l) ('\n' :: k)) (List.prefix_append s key) hs.le
          rw [← hk2, List.append_assoc] at hk
          have e2 := List.append_cancel_left hk
          cases k2 with
          | nil => simp [← hk2] at hs
          | cons y k2 =>
            simp only [List.cons_append, List.cons.injEq] at e2
            exact ih ⟨k2, t, by rw [← e2.2, e]⟩
        · obtain ⟨k2, hk2⟩ := List.prefix_of_prefix_length_le (List.prefix_append s key) (hk ▸ List.prefix_append (text l) ('\n' :: k)) hs
          rw [← hk2, List.append_assoc] at hk
          have e2 := List.append_cancel_left hk
          have : '\n' ∈ key := by rw [← e2]; simp
          exact absurd this (by decide)
    · have := List.prefix_of_prefix_length_le (hst' ▸ List.prefix_append (s ++ key) t) (List.prefix_append (text l) ('\n' :: r)) hl
      exact h l (by simp) (((List.suffix_append s key).isInfix).trans this.isInfix)

/-! ### Steps -/

/-- What `instrumentation` did if it succeeded. -/
theorem instrumentation_ok {L M : Type} [LT M] [DecidableLT M] (c : Code L M) (b : Block) (i : Incr) (input : List Char) (answers : List (List Char))
    (cache : Option (List Char)) (m : Marked L) (h : instrumentation c b i input answers cache = .ok m) :
    ∃ label rest ls, selectBlock c b answers = .ok (label, rest) ∧ c.loops.lookup label = some m.block ∧
      selectIncr c m.block i input rest cache = .ok (m.increment, m.cache) ∧
      Asm.instrument c.eqv c.lines m.block (c.marker (comment m.increment (c.hash m.block))).1
        (c.marker (comment m.increment (c.hash m.block))).2 = .ok ls ∧ m.text = ls.flatMap fun l => c.text l ++ ['\n'] := by
  unfold instrumentation at h
  split at h
  · simp at h
  next label rest hb =>
    split at h
    · simp at h
    next block hl =>
      split at h
      next first last h1 h2 =>
        split at h
        · split at h
          · simp at h
          next n cache' hi =>
            simp only at h
            split at h
            · simp at h
            next ls hm =>
              simp only [Except.ok.injEq] at h
              subst h
              exact ⟨label, rest, ls, hb, hl, hi, hm, rfl⟩
        · simp at h
      · simp at h

theorem lookup_nodup {B : Type} (loops : List (List Char × B)) (hnd : (loops.map (·.1)).Nodup) (l : List Char) (b : B) (h : (l, b) ∈ loops) :
    loops.lookup l = some b := by
  induction loops with
  | nil => simp at h
  | cons x loops ih =>
    obtain ⟨l', b'⟩ := x
    simp only [List.map_cons, List.nodup_cons] at hnd
    rcases List.mem_cons.1 h with h | hm
    · obtain ⟨rfl, rfl⟩ := Prod.mk.inj h
      simp
    · have : l ≠ l' := by
        rintro rfl
        exact hnd.1 (List.mem_map.2 ⟨(l, b), hm, rfl⟩)
      rw [List.lookup_cons, beq_false_of_ne this]
      exact ih hnd.2 hm

end Verif.Marking
