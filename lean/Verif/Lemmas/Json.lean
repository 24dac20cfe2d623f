import Verif.Model.Json
import Verif.Lemmas.Text
import Mathlib.Data.List.Nodup

namespace Verif.Json

open Verif.Text

/-! ### `repr` is injective -/

theorem hexDigit_inj : ∀ a < 16, ∀ b < 16, hexDigit a = hexDigit b → a = b := by decide

theorem char_of_hex (c d : Char) (hc : c.toNat < 128) (hd : d.toNat < 128) (h1 : hexDigit (c.toNat / 16) = hexDigit (d.toNat / 16))
    (h2 : hexDigit (c.toNat % 16) = hexDigit (d.toNat % 16)) : c = d := by
  have e1 := hexDigit_inj _ (by omega) _ (by omega) h1
  have e2 := hexDigit_inj _ (by omega) _ (by omega) h2
  exact Char.toNat_inj.1 (by omega)

/-- Forms of escapes. -/
theorem esc_cases (q c : Char) :
    (esc q c = ['\\', c] ∧ (c = q ∨ c = '\\')) ∨ (esc q c = ['\\', 'n'] ∧ c = '\n') ∨ (esc q c = ['\\', 'r'] ∧ c = '\r') ∨
      (esc q c = ['\\', 't'] ∧ c = '\t') ∨
      (esc q c = ['\\', 'x', hexDigit (c.toNat / 16), hexDigit (c.toNat % 16)] ∧ c.toNat < 128) ∨ (esc q c = [c] ∧ c ≠ q ∧ c ≠ '\\') := by
  unfold esc
  split
  · rename_i h; exact .inl ⟨rfl, h⟩
  · rename_i h
    split
    · rename_i h; exact .inr (.inl ⟨rfl, h⟩)
    · split
      · rename_i h; exact .inr (.inr (.inl ⟨rfl, h⟩))
      · split
        · rename_i h; exact .inr (.inr (.inr (.inl ⟨rfl, h⟩)))
        · split
          · exact .inr (.inr (.inr (.inr (.inl ⟨rfl, by omega⟩))))
          · push Not at h
            exact .inr (.inr (.inr (.inr (.inr ⟨rfl, h⟩))))

theorem esc_inj (q c d : Char) (hq : q = '\'' ∨ q = '"') (r r' : List Char) (h : esc q c ++ r = esc q d ++ r') : c = d ∧ r = r' := by
  have hn : ∀ x : Char, (x = q ∨ x = '\\') → x ≠ 'n' ∧ x ≠ 'r' ∧ x ≠ 't' ∧ x ≠ 'x' := by
    rintro x (rfl | rfl)
    · rcases hq with rfl | rfl <;> decide
    · decide
  rcases esc_cases q c with ⟨e, hc⟩ | ⟨e, hc⟩ | ⟨e, hc⟩ | ⟨e, hc⟩ | ⟨e, hc⟩ | ⟨e, hc, hc'⟩ <;>
    rcases esc_cases q d with ⟨e', hd⟩ | ⟨e', hd⟩ | ⟨e', hd⟩ | ⟨e', hd⟩ | ⟨e', hd⟩ | ⟨e', hd, hd'⟩ <;> rw [e, e'] at h <;>
    simp only [List.cons_append, List.nil_append, List.cons.injEq, true_and] at h
  all_goals first
    | exact h
    | exact absurd h.1.symm (hn _ hd).1
    | exact absurd h.1.symm (hn _ hd).2.1
    | exact absurd h.1.symm (hn _ hd).2.2.1
    | exact absurd h.1.symm (hn _ hd).2.2.2
    | exact absurd h.1 (hn _ hc).1
    | exact absurd h.1 (hn _ hc).2.1
    | exact absurd h.1 (hn _ hc).2.2.1
    | exact absurd h.1 (hn _ hc).2.2.2
    | exact ⟨char_of_hex _ _ hc hd h.1 h.2.1, h.2.2⟩
    | exact absurd h.1.symm hd'
    | exact absurd h.1 hc'
    | exact ⟨hc.trans hd.symm, h⟩
    | exact absurd h.1 (by decide)

theorem esc_head (q c : Char) (hq : q = '\'' ∨ q = '"') : ∃ x xs, esc q c = x :: xs ∧ x ≠ q := by
  have : '\\' ≠ q := by rcases hq with rfl | rfl <;> decide
  rcases esc_cases q c with ⟨e, hc⟩ | ⟨e, hc⟩ | ⟨e, hc⟩ | ⟨e, hc⟩ | ⟨e, hc⟩ | ⟨e, hc, hc'⟩
  all_goals first
    | exact ⟨_, _, e, this⟩
    | exact ⟨_, _, e, hc⟩

theorem escs_inj (q : Char) (hq : q = '\'' ∨ q = '"') (s t r r' : List Char) (h : s.flatMap (esc q) ++ q :: r = t.flatMap (esc q) ++ q :: r') :
    s = t ∧ r = r' := by
  induction s generalizing t with
  | nil =>
    cases t with
    | nil => simpa using h
    | cons d t =>
      obtain ⟨x, xs, e, hx⟩ := esc_head q d hq
      rw [List.flatMap_cons, e] at h
      simp only [List.flatMap_nil, List.nil_append, List.cons_append, List.cons.injEq] at h
      exact absurd h.1.symm hx
  | cons c s ih =>
    cases t with
    | nil =>
      obtain ⟨x, xs, e, hx⟩ := esc_head q c hq
      rw [List.flatMap_cons, e] at h
      simp only [List.flatMap_nil, List.nil_append, List.cons_append, List.cons.injEq] at h
      exact absurd h.1 hx
    | cons d t =>
      rw [List.flatMap_cons, List.flatMap_cons, List.append_assoc, List.append_assoc] at h
      obtain ⟨rfl, h'⟩ := esc_inj q c d hq _ _ h
      obtain ⟨rfl, h''⟩ := ih t h'
      exact ⟨rfl, h''⟩

theorem quote_cases (s : List Char) : quote s = '\'' ∨ quote s = '"' := by
  unfold quote
  split <;> simp

theorem reprStr_inj (s t r r' : List Char) (h : reprStr s ++ r = reprStr t ++ r') : s = t ∧ r = r' := by
  unfold reprStr at h
  simp only [List.cons_append, List.cons.injEq, List.append_assoc, List.nil_append] at h
  obtain ⟨hq, h⟩ := h
  rw [← hq] at h
  exact escs_inj _ (quote_cases s) _ _ _ _ h

/-- What can follow a value. -/
def Delim (r : List Char) : Prop := ∀ c ∈ r.head?, c = ',' ∨ c = ')'

def intChar (c : Char) : Bool := isDigit c || c == '-'

theorem showInt_chars (z : Int) : ∀ c ∈ showInt z, intChar c = true := by
  intro c hc
  unfold showInt at hc
  split at hc
  · rcases List.mem_cons.1 hc with rfl | hc
    · decide
    · simp [intChar, showNat_digits _ c hc]
  · simp [intChar, showNat_digits _ c hc]

theorem showInt_ne_nil (z : Int) : showInt z ≠ [] := by
  unfold showInt
  split
  · simp
  · exact showNat_ne_nil _

theorem showInt_inj (a b : Int) (h : showInt a = showInt b) : a = b := by
  have := parseInt_showInt a
  rw [h, parseInt_showInt b] at this
  simpa using this.symm

theorem showInt_delim (a b : Int) (r r' : List Char) (hr : Delim r) (hr' : Delim r') (h : showInt a ++ r = showInt b ++ r') : a = b ∧ r = r' := by
  have stop : ∀ r : List Char, Delim r → r.takeWhile intChar = [] := by
    intro r hr
    cases r with
    | nil => rfl
    | cons c r =>
      have : intChar c = false := by rcases hr c (by simp) with rfl | rfl <;> decide
      rw [List.takeWhile_cons, this]
      rfl
  have tw : ∀ (z : Int) (r : List Char), Delim r → (showInt z ++ r).takeWhile intChar = showInt z := by
    intro z r hr
    rw [List.takeWhile_append_of_pos (showInt_chars z), stop r hr, List.append_nil]
  have e := tw a r hr
  rw [h, tw b r' hr'] at e
  have hab := showInt_inj _ _ e
  subst hab
  exact ⟨rfl, List.append_cancel_left h⟩

/-- First characters of the kinds of values. -/
def kind : Key → Nat
  | .str _ => 0
  | .int _ => 1
  | .bool true => 2
  | .bool false => 3
  | .none => 4
  | .tup _ => 5

/-- The kind can be seen from the first character. -/
def kindOf (c : Char) : Nat :=
  if c = '\'' ∨ c = '"' then 0 else if intChar c then 1 else if c = 'T' then 2 else if c = 'F' then 3 else if c = 'N' then 4 else if c = '(' then 5 else 6

theorem repr_head (k : Key) : ∃ c cs, repr k = c :: cs ∧ kindOf c = kind k := by
  cases k with
  | str s =>
    refine ⟨_, _, by rw [repr]; rfl, ?_⟩
    rcases quote_cases s with h | h <;> rw [h] <;> rfl
  | int z =>
    rw [repr]
    cases h : showInt z with
    | nil => exact absurd h (showInt_ne_nil z)
    | cons c cs =>
      refine ⟨c, cs, rfl, ?_⟩
      have hc := showInt_chars z c (by simp [h])
      have : ¬ (c = '\'' ∨ c = '"') := by
        rintro (rfl | rfl) <;> exact absurd hc (by decide)
      simp [kindOf, this, hc, kind]
  | bool b => cases b <;> exact ⟨_, _, by rw [repr]; rfl, by decide⟩
  | none => exact ⟨_, _, by rw [repr]; rfl, by decide⟩
  | tup l =>
    match l with
    | [] => exact ⟨'(', [')'], by rw [repr]; rfl, by decide⟩
    | [a] => exact ⟨'(', _, by rw [repr], rfl⟩
    | a :: b :: l => exact ⟨'(', _, by rw [repr], rfl⟩

theorem repr_not_close (k : Key) (r r' : List Char) : repr k ++ r ≠ ')' :: r' := by
  obtain ⟨c, cs, e, hc⟩ := repr_head k
  rw [e, List.cons_append]
  intro h
  rw [List.cons.injEq] at h
  rw [h.1] at hc
  have : kindOf ')' = 6 := by decide
  rw [this] at hc
  cases k with
  | bool b => cases b <;> simp [kind] at hc
  | _ => simp [kind] at hc

theorem reprTail_delim (l : List Key) (r : List Char) : Delim (reprTail l ++ r) := by
  cases l with
  | nil => rw [reprTail]; intro c hc; simp at hc; exact .inr hc.symm
  | cons a l => rw [reprTail]; intro c hc; simp at hc; exact .inl hc.symm

mutual
theorem repr_inj : ∀ (k k' : Key) (r r' : List Char), Delim r → Delim r' → repr k ++ r = repr k' ++ r' → k = k' ∧ r = r'
  | k, k', r, r', hr, hr', h => by
    have hk : kind k = kind k' := by
      obtain ⟨c, cs, e, hc⟩ := repr_head k
      obtain ⟨c', cs', e', hc'⟩ := repr_head k'
      rw [e, e', List.cons_append, List.cons_append, List.cons.injEq] at h
      rw [← hc, ← hc', h.1]
    match k, k' with
    | .str s, .str s' =>
      rw [repr, repr] at h
      obtain ⟨rfl, h'⟩ := reprStr_inj _ _ _ _ h
      exact ⟨rfl, h'⟩
    | .int z, .int z' =>
      rw [repr, repr] at h
      obtain ⟨rfl, h'⟩ := showInt_delim _ _ _ _ hr hr' h
      exact ⟨rfl, h'⟩
    | .bool true, .bool true => exact ⟨rfl, List.append_cancel_left h⟩
    | .bool false, .bool false => exact ⟨rfl, List.append_cancel_left h⟩
    | .none, .none => exact ⟨rfl, List.append_cancel_left h⟩
    | .tup l, .tup l' => 
      match l, l' with
      | [], [] => exact ⟨rfl, List.append_cancel_left h⟩
      | [a], [a'] =>
        rw [repr, repr] at h
        simp only [List.cons_append, List.cons.injEq, true_and, List.append_assoc] at h
        obtain ⟨rfl, h'⟩ := repr_inj a a' _ _ (by intro c hc; simp at hc; exact .inl hc.symm) (by intro c hc; simp at hc; exact .inl hc.symm) h
        exact ⟨rfl, List.append_cancel_left h'⟩
      | a :: b :: l, a' :: b' :: l' =>
        rw [repr, repr] at h
        simp only [List.cons_append, List.cons.injEq, true_and, List.append_assoc] at h
        obtain ⟨rfl, h'⟩ := repr_inj a a' _ _ (reprTail_delim _ _) (reprTail_delim _ _) h
        obtain ⟨h1, h2⟩ := reprTail_inj (b :: l) (b' :: l') _ _ h'
        rw [h1]
        exact ⟨rfl, h2⟩
      | [a], a' :: b' :: l' =>
        rw [repr, repr] at h
        simp only [List.cons_append, List.cons.injEq, true_and, List.append_assoc] at h
        obtain ⟨rfl, h'⟩ := repr_inj a a' _ _ (by intro c hc; simp at hc; exact .inl hc.symm) (reprTail_delim _ _) h
        rw [reprTail] at h'
        simp at h'
      | a :: b :: l, [a'] =>
        rw [repr, repr] at h
        simp only [List.cons_append, List.cons.injEq, true_and, List.append_assoc] at h
        obtain ⟨rfl, h'⟩ := repr_inj a a' _ _ (reprTail_delim _ _) (by intro c hc; simp at hc; exact .inl hc.symm) h
        rw [reprTail] at h'
        simp at h'
      | [], [a'] =>
        rw [repr, repr] at h
        simp only [show "()".toList = ['(', ')'] from rfl, List.cons_append, List.cons.injEq, true_and, List.append_assoc] at h
        exact absurd h.symm (repr_not_close _ _ _)
      | [], a' :: b' :: l' =>
        rw [repr, repr] at h
        simp only [show "()".toList = ['(', ')'] from rfl, List.cons_append, List.cons.injEq, true_and, List.append_assoc] at h
        exact absurd h.symm (repr_not_close _ _ _)
      | [a], [] =>
        rw [repr, repr] at h
        simp only [show "()".toList = ['(', ')'] from rfl, List.cons_append, List.cons.injEq, true_and, List.append_assoc] at h
        exact absurd h (repr_not_close _ _ _)
      | a :: b :: l, [] =>
        rw [repr, repr] at h
        simp only [show "()".toList = ['(', ')'] from rfl, List.cons_append, List.cons.injEq, true_and, List.append_assoc] at h
        exact absurd h (repr_not_close _ _ _)

theorem reprTail_inj : ∀ (l l' : List Key) (r r' : List Char), reprTail l ++ r = reprTail l' ++ r' → l = l' ∧ r = r'
  | [], [], r, r', h => ⟨rfl, List.append_cancel_left h⟩
  | [], a' :: l', r, r', h => by
    rw [reprTail, reprTail] at h
    simp at h
  | a :: l, [], r, r', h => by
    rw [reprTail, reprTail] at h
    simp at h
  | a :: l, a' :: l', r, r', h => by
    rw [reprTail, reprTail] at h
    simp only [List.cons_append, List.cons.injEq, true_and, List.append_assoc] at h
    obtain ⟨rfl, h'⟩ := repr_inj a a' _ _ (reprTail_delim _ _) (reprTail_delim _ _) h
    obtain ⟨rfl, h''⟩ := reprTail_inj l l' _ _ h'
    exact ⟨rfl, h''⟩
end

theorem repr_injective (k k' : Key) (h : repr k = repr k') : k = k' :=
  (repr_inj k k' [] [] (by intro c hc; simp at hc) (by intro c hc; simp at hc) (by rw [h])).1

/-! ### Dictionaries -/

theorem assign_new {α β : Type} [DecidableEq α] (k : α) (v : β) (l : List (α × β)) (h : k ∉ l.map (·.1)) : assign k v l = l ++ [(k, v)] := by
  induction l with
  | nil => rfl
  | cons e l ih =>
    simp only [List.map_cons, List.mem_cons, not_or] at h
    rw [assign, if_neg (fun he => h.1 he.symm), ih h.2]
    rfl

theorem dumpDict_eq (l : List (DKey × Val)) (acc : List (JKey × Json)) (h : (acc.map (·.1) ++ l.map fun e => jkey e.1).Nodup) :
    dumpDict l acc = acc ++ l.map fun e => (jkey e.1, dump e.2) := by
  induction l generalizing acc with
  | nil => simp [dumpDict]
  | cons e l ih =>
    obtain ⟨k, v⟩ := e
    have hn : jkey k ∉ acc.map (·.1) := by
      intro hm
      rw [List.nodup_append] at h
      exact h.2.2 _ hm (jkey k) (by simp) rfl
    rw [dumpDict, assign_new _ _ _ hn, ih]
    · simp
    · simpa using h

theorem loadObj_eq (l : List (List Char × Json)) (acc : List (List Char × Val)) (h : (acc.map (·.1) ++ l.map (·.1)).Nodup) :
    loadObj l acc = acc ++ l.map fun e => (e.1, load e.2) := by
  induction l generalizing acc with
  | nil => simp [loadObj]
  | cons e l ih =>
    obtain ⟨k, v⟩ := e
    have hn : k ∉ acc.map (·.1) := by
      intro hm
      rw [List.nodup_append] at h
      exact h.2.2 _ hm k (by simp) rfl
    rw [loadObj, assign_new _ _ _ hn, ih]
    · simp
    · simpa using h

theorem find_unique (l : List (List Char × Json)) (h : (l.map (·.1)).Nodup) (n : List Char) (j : Json) (hm : (n, j) ∈ l) : find n l = some j := by
  unfold find
  have hu : ∀ e ∈ l, e.1 = n → e = (n, j) := by
    intro e he hen
    exact List.inj_on_of_nodup_map h he hm hen
  cases hf : l.reverse.find? (fun e => decide (e.1 = n)) with
  | none =>
    rw [List.find?_eq_none] at hf
    exact absurd (hf (n, j) (by simpa using hm)) (by simp)
  | some e =>
    have h1 := List.mem_of_find?_eq_some hf
    have h2 := List.find?_some hf
    rw [hu e (by simpa using h1) (by simpa using h2)]
    rfl

/-! ### Reading back -/

mutual
/-- Values that have a form in JSON: texts, numbers, lists and dictionaries with texts as keys. -/
def Plain : Val → Prop
  | .str _ => True
  | .int _ => True
  | .float _ => True
  | .bool _ => True
  | .none => False
  | .other _ => False
  | .list l => PlainList l
  | .tuple _ => False
  | .dict l => (l.map (·.1)).Nodup ∧ PlainDict l

def PlainList : List Val → Prop
  | [] => True
  | v :: l => Plain v ∧ PlainList l

def PlainDict : List (DKey × Val) → Prop
  | [] => True
  | (k, v) :: l => (∃ s, k = .str s) ∧ Plain v ∧ PlainDict l
end

theorem plainDict_keys (l : List (DKey × Val)) (h : PlainDict l) : ∃ names : List (List Char), l.map (·.1) = names.map DKey.str := by
  induction l with
  | nil => exact ⟨[], rfl⟩
  | cons e l ih =>
    obtain ⟨k, v⟩ := e
    rw [PlainDict] at h
    obtain ⟨⟨s, rfl⟩, -, h3⟩ := h
    obtain ⟨ns, hns⟩ := ih h3
    exact ⟨s :: ns, by simp [hns]⟩

mutual
theorem roundtrip : ∀ v : Val, Plain v → load (dump v) = v
  | .str _, _ => by rw [dump, load]
  | .int _, _ => by rw [dump, load]
  | .float _, _ => by rw [dump, load]
  | .bool _, _ => by rw [dump, load]
  | .none, h => by rw [Plain] at h; exact h.elim
  | .other _, h => by rw [Plain] at h; exact h.elim
  | .tuple _, h => by rw [Plain] at h; exact h.elim
  | .list l, h => by
    rw [Plain] at h
    rw [dump, load, roundtripList l h]
  | .dict l, h => by
    rw [Plain] at h
    have hr := roundtripDict l h.2
    obtain ⟨names, hn⟩ := plainDict_keys l h.2
    have e1 : (l.map fun e => jkey e.1) = names.map JKey.str := by
      have : (l.map fun e => jkey e.1) = (l.map (·.1)).map jkey := by simp [Function.comp_def]
      rw [this, hn, List.map_map]
      rfl
    have hnd : names.Nodup := by
      have := h.1
      rw [hn] at this
      exact this.of_map _
    have h1 : ((([] : List (JKey × Json)).map (·.1)) ++ l.map fun e => jkey e.1).Nodup := by
      rw [e1]
      simpa using hnd.map (by intro a b h; simpa using h)
    have e2 : ((l.map fun e => (jkey e.1, dump e.2)).map fun e => (name e.1, e.2)).map (·.1) = names := by
      have : ((l.map fun e => (jkey e.1, dump e.2)).map fun e => (name e.1, e.2)).map (·.1) = (l.map fun e => jkey e.1).map name := by
        simp [Function.comp_def]
      rw [this, e1, List.map_map]
      simp [Function.comp_def, name]
    rw [dump, load, dumpDict_eq l [] h1, List.nil_append, loadObj_eq _ [] (by rw [e2]; simpa using hnd), List.nil_append]
    simp only [List.map_map]
    simpa [Function.comp_def] using hr

theorem roundtripList : ∀ l : List Val, PlainList l → loadList (dumpList l) = l
  | [], _ => by rw [dumpList, loadList]
  | v :: l, h => by
    rw [PlainList] at h
    rw [dumpList, loadList, roundtrip v h.1, roundtripList l h.2]

theorem roundtripDict : ∀ l : List (DKey × Val), PlainDict l → (l.map fun e => (DKey.str (name (jkey e.1)), load (dump e.2))) = l
  | [], _ => rfl
  | (k, v) :: l, h => by
    rw [PlainDict] at h
    obtain ⟨⟨s, rfl⟩, h2, h3⟩ := h
    rw [List.map_cons, roundtrip v h2, roundtripDict l h3]
    rfl
end

/-! ### Tuples, and keys with the same text -/

mutual
/-- The value with lists in the place of tuples. -/
def asLists : Val → Val
  | .tuple l => .list (asListsAll l)
  | .list l => .list (asListsAll l)
  | .dict l => .dict (asListsDict l)
  | .str s => .str s
  | .int z => .int z
  | .float x => .float x
  | .bool b => .bool b
  | .none => .none
  | .other text => .other text

def asListsAll : List Val → List Val
  | [] => []
  | v :: l => asLists v :: asListsAll l

def asListsDict : List (DKey × Val) → List (DKey × Val)
  | [] => []
  | (k, v) :: l => (k, asLists v) :: asListsDict l
end

mutual
theorem dump_asLists : ∀ v : Val, dump (asLists v) = dump v
  | .tuple l => by rw [asLists, dump, dump, dumpList_asLists l]
  | .list l => by rw [asLists, dump, dump, dumpList_asLists l]
  | .dict l => by rw [asLists, dump, dump, dumpDict_asLists l]
  | .str _ => by rw [asLists]
  | .int _ => by rw [asLists]
  | .float _ => by rw [asLists]
  | .bool _ => by rw [asLists]
  | .none => by rw [asLists]
  | .other _ => by rw [asLists]

theorem dumpList_asLists : ∀ l : List Val, dumpList (asListsAll l) = dumpList l
  | [] => by rw [asListsAll]
  | v :: l => by rw [asListsAll, dumpList, dumpList, dump_asLists v, dumpList_asLists l]

theorem dumpDict_asLists : ∀ (l : List (DKey × Val)) (acc : List (JKey × Json)), dumpDict (asListsDict l) acc = dumpDict l acc
  | [], acc => by rw [asListsDict]
  | (k, v) :: l, acc => by rw [asListsDict, dumpDict, dumpDict, dump_asLists v, dumpDict_asLists l]
end

/-- The first value of a key. -/
def firstOf {β : Type} (k : JKey) (l : List (JKey × β)) : Option β := (l.find? fun e => e.1 = k).map (·.2)

theorem firstOf_assign {β : Type} (k k' : JKey) (v : β) (l : List (JKey × β)) :
    firstOf k (assign k' v l) = if k' = k then some v else firstOf k l := by
  induction l with
  | nil => by_cases h : k' = k <;> simp [firstOf, assign, h]
  | cons e l ih =>
    unfold firstOf at ih ⊢
    by_cases h : e.1 = k'
    · rw [assign, if_pos h]
      by_cases h2 : k' = k
      · simp [h2]
      · simp [h2, h]
    · rw [assign, if_neg h]
      by_cases h2 : e.1 = k
      · have : k' ≠ k := fun h3 => h (h2.trans h3.symm)
        simp [h2, this]
      · rw [List.find?_cons_of_neg (by simpa using h2), ih, List.find?_cons_of_neg (by simpa using h2)]

theorem assign_keys {β : Type} (k : JKey) (v : β) (l : List (JKey × β)) (x : JKey) :
    x ∈ (assign k v l).map (·.1) ↔ x = k ∨ x ∈ l.map (·.1) := by
  induction l with
  | nil => simp [assign]
  | cons e l ih =>
    by_cases h : e.1 = k
    · rw [assign, if_pos h]; simp [h]
    · rw [assign, if_neg h, List.map_cons, List.mem_cons, ih, List.map_cons, List.mem_cons]; tauto

theorem assign_nodup {β : Type} (k : JKey) (v : β) (l : List (JKey × β)) (h : (l.map (·.1)).Nodup) : ((assign k v l).map (·.1)).Nodup := by
  induction l with
  | nil => simp [assign]
  | cons e l ih =>
    rw [List.map_cons, List.nodup_cons] at h
    by_cases he : e.1 = k
    · rw [assign, if_pos he, List.map_cons, List.nodup_cons]; exact ⟨he ▸ h.1, h.2⟩
    · rw [assign, if_neg he, List.map_cons, List.nodup_cons, assign_keys]
      exact ⟨by rintro (h1 | h1); exacts [he h1, h.1 h1], ih h.2⟩

theorem dumpDict_inv (l : List (DKey × Val)) (acc : List (JKey × Json)) (h : (acc.map (·.1)).Nodup) (k : JKey) :
    ((dumpDict l acc).map (·.1)).Nodup ∧
      firstOf k (dumpDict l acc) = (((l.reverse.find? fun e => jkey e.1 = k).map fun e => dump e.2) <|> firstOf k acc) ∧
      ∀ x, x ∈ (dumpDict l acc).map (·.1) ↔ x ∈ acc.map (·.1) ∨ x ∈ l.map fun e => jkey e.1 := by
  induction l generalizing acc with
  | nil => rw [dumpDict]; simp [h]
  | cons e l ih =>
    obtain ⟨k', v⟩ := e
    obtain ⟨h1, h2, h3⟩ := ih (assign (jkey k') (dump v) acc) (assign_nodup _ _ _ h)
    rw [dumpDict]
    refine ⟨h1, ?_, fun x => ?_⟩
    · rw [h2, firstOf_assign, List.reverse_cons, List.find?_append]
      cases l.reverse.find? fun e => jkey e.1 = k with
      | some e => simp
      | none =>
        by_cases hk : jkey k' = k
        · simp [hk]
        · simp [hk]
    · rw [h3, assign_keys, List.map_cons, List.mem_cons]; tauto

theorem find_congr {α : Type} (l : List α) (p q : α → Bool) (h : ∀ x ∈ l, p x = q x) : l.find? p = l.find? q := by
  induction l with
  | nil => rfl
  | cons a l ih =>
    rw [List.find?_cons, List.find?_cons, h a (by simp), ih fun x hx => h x (by simp [hx])]

theorem find_names (l : List (JKey × Json)) (h : (l.map (·.1)).Nodup) (ht : ∀ k ∈ l.map (·.1), ∃ s, k = .str s) (n : List Char) :
    find n (l.map fun e => (name e.1, e.2)) = firstOf (.str n) l := by
  have hnd : ((l.map fun e => (name e.1, e.2)).map (·.1)).Nodup := by
    rw [List.map_map]
    rw [show ((fun x => x.1) ∘ fun e : JKey × Json => (name e.1, e.2)) = name ∘ (·.1) from rfl, ← List.map_map]
    refine List.Nodup.map_on ?_ h
    intro a ha b hb hab
    obtain ⟨s, rfl⟩ := ht a ha
    obtain ⟨t, rfl⟩ := ht b hb
    simpa [name] using hab
  cases hf : firstOf (.str n) l with
  | some j =>
    unfold firstOf at hf
    rw [Option.map_eq_some_iff] at hf
    obtain ⟨e, he, rfl⟩ := hf
    refine find_unique _ hnd _ _ (List.mem_map.2 ⟨e, List.mem_of_find?_eq_some he, ?_⟩)
    have := List.find?_some he
    simp only [decide_eq_true_eq] at this
    rw [this, name]
  | none =>
    unfold firstOf at hf
    rw [Option.map_eq_none_iff, List.find?_eq_none] at hf
    unfold find
    rw [Option.map_eq_none_iff, List.find?_eq_none]
    intro x hx
    rw [List.mem_reverse, List.mem_map] at hx
    obtain ⟨e, he, rfl⟩ := hx
    obtain ⟨s, hs⟩ := ht e.1 (List.mem_map.2 ⟨e, he, rfl⟩)
    have := hf e he
    simp only [hs, JKey.str.injEq, decide_eq_true_eq] at this
    simpa [hs, name] using this

end Verif.Json
