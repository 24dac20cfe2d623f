import Verif.Model.Whole

/-!
Lemmas for C159.
-/

namespace Verif.Whole

theorem words_spec (ts : List Tok) : ts = (words ts).1.map .word ++ (words ts).2 := by
  induction ts with
  | nil => rfl
  | cons t ts ih => cases t <;> simp [words, ← ih]

theorem words_append (ws : List String) (t : Tok) (ts : List Tok) (h : ∀ s, t ≠ .word s) :
    words (ws.map .word ++ t :: ts) = (ws, t :: ts) := by
  induction ws with
  | nil => cases t <;> simp_all [words]
  | cons w ws ih => simp [words, ih]

/-- Where statements end. -/
def Ends (r : List Tok) : Prop := r = [] ∨ ∃ r', r = .rb :: r'

/-- The general case of `items`. -/
theorem items_succ (n : Nat) (ts : List Tok) (h : ¬ Ends ts) : items (n + 1) ts =
    match (words ts).2 with
    | .semi :: r =>
      match items n r with
      | some (x, r) => some (.stmt (words ts).1 x, r)
      | none => none
    | .lb :: r =>
      match items n r with
      | some (i, .rb :: r) =>
        match items n r with
        | some (x, r) => some (.block (words ts).1 i x, r)
        | none => none
      | _ => none
    | _ => none := by
  cases ts with
  | nil => exact absurd (.inl rfl) h
  | cons t ts =>
    cases t with
    | rb => exact absurd (.inr ⟨_, rfl⟩) h
    | word s => rfl
    | semi => rfl
    | lb => rfl

theorem items_sound (n : Nat) (ts r : List Tok) (x : Items) (h : items n ts = some (x, r)) : ts = x.print ++ r ∧ Ends r := by
  induction n generalizing ts r x with
  | zero => simp [items] at h
  | succ n ih =>
    by_cases he : Ends ts
    · rcases he with rfl | ⟨r', rfl⟩
      · simp only [items, Option.some.injEq, Prod.mk.injEq] at h
        obtain ⟨rfl, rfl⟩ := h
        exact ⟨rfl, .inl rfl⟩
      · simp only [items, Option.some.injEq, Prod.mk.injEq] at h
        obtain ⟨rfl, rfl⟩ := h
        exact ⟨rfl, .inr ⟨_, rfl⟩⟩
    · rw [items_succ n ts he] at h
      have hw := words_spec ts
      split at h
      · next r1 h1 =>
        rw [h1] at hw
        split at h
        · next y r2 h2 =>
          simp only [Option.some.injEq, Prod.mk.injEq] at h
          obtain ⟨rfl, rfl⟩ := h
          obtain ⟨h3, h4⟩ := ih _ _ _ h2
          exact ⟨by rw [Items.print, List.append_assoc, List.cons_append, ← h3]; exact hw, h4⟩
        · simp at h
      · next r1 h1 =>
        rw [h1] at hw
        split at h
        · next i r2 h2 =>
          split at h
          · next y r3 h3 =>
            simp only [Option.some.injEq, Prod.mk.injEq] at h
            obtain ⟨rfl, rfl⟩ := h
            obtain ⟨h4, -⟩ := ih _ _ _ h2
            obtain ⟨h5, h6⟩ := ih _ _ _ h3
            refine ⟨?_, h6⟩
            rw [Items.print, List.append_assoc, List.cons_append, List.append_assoc, List.cons_append, ← h5, ← h4]
            exact hw
          · simp at h
        · simp at h
      · simp at h

theorem items_complete (x : Items) (r : List Tok) (n : Nat) (hr : Ends r) (hn : x.print.length < n) :
    items n (x.print ++ r) = some (x, r) := by
  induction x generalizing r n with
  | nil =>
    cases n with
    | zero => omega
    | succ n => rcases hr with rfl | ⟨r', rfl⟩ <;> rfl
  | stmt ws rest ih =>
    cases n with
    | zero => omega
    | succ n =>
      simp only [Items.print, List.length_append, List.length_map, List.length_cons] at hn
      have hne : ¬ Ends ((Items.stmt ws rest).print ++ r) := by
        cases ws <;> simp [Items.print, Ends]
      rw [items_succ n _ hne]
      simp only [Items.print, List.append_assoc, List.cons_append, words_append ws .semi _ (by simp)]
      rw [ih r n hr (by omega)]
  | block ws inner rest ih1 ih2 =>
    cases n with
    | zero => omega
    | succ n =>
      simp only [Items.print, List.length_append, List.length_map, List.length_cons] at hn
      have hne : ¬ Ends ((Items.block ws inner rest).print ++ r) := by
        cases ws <;> simp [Items.print, Ends]
      rw [items_succ n _ hne]
      simp only [Items.print, List.append_assoc, List.cons_append, words_append ws .lb _ (by simp)]
      rw [ih1 _ n (.inr ⟨_, rfl⟩) (by omega)]
      simp only
      rw [ih2 r n hr (by omega)]

theorem count_words (ws : List String) (t : Tok) (h : ∀ s, t ≠ .word s) : (ws.map Tok.word).count t = 0 := by
  rw [List.count_eq_zero]
  intro hm
  obtain ⟨s, -, hs⟩ := List.mem_map.1 hm
  exact h s hs.symm

theorem count_print (x : Items) : x.print.count .rb = x.print.count .lb := by
  induction x with
  | nil => rfl
  | stmt ws rest ih => simp [Items.print, List.count_append, count_words, ih]
  | block ws inner rest ih1 ih2 =>
    simp [Items.print, List.count_append, count_words, ih1, ih2]
    omega

theorem prefix_append {α : Type} (p a b : List α) (h : p <+: a ++ b) : p <+: a ∨ ∃ q, p = a ++ q ∧ q <+: b := by
  obtain ⟨t, ht⟩ := h
  rcases List.append_eq_append_iff.1 ht with ⟨c, h1, -⟩ | ⟨c, h1, h2⟩
  · exact .inl ⟨c, h1.symm⟩
  · exact .inr ⟨c, h1, t, h2.symm⟩

/-- Matched code with the same number of opening and closing braces can be followed by matched code. -/
theorem matched_append (a b : List Tok) (ha : Matched a) (hb : Matched b) : a.count .rb ≤ a.count .lb → Matched (a ++ b) := by
  intro hc p hp
  rcases prefix_append p a b hp with h | ⟨q, rfl, h⟩
  · exact ha p h
  · have := hb q h
    simp only [List.count_append]
    omega

theorem matched_words (ws : List String) : Matched (ws.map .word) := by
  intro p hp
  have : p.count .rb ≤ (ws.map Tok.word).count .rb := hp.sublist.count_le _
  rw [count_words ws .rb (by simp)] at this
  omega

theorem matched_print (x : Items) : Matched x.print := by
  induction x with
  | nil => intro p hp; simp [List.prefix_nil.1 hp]
  | stmt ws rest ih =>
    refine matched_append _ _ (matched_words ws) ?_ (by simp [count_words])
    intro p hp
    rcases List.prefix_cons_iff.1 hp with rfl | ⟨q, rfl, hq⟩
    · simp
    · simpa using ih q hq
  | block ws inner rest ih1 ih2 =>
    refine matched_append _ _ (matched_words ws) ?_ (by simp [count_words])
    intro p hp
    rcases List.prefix_cons_iff.1 hp with rfl | ⟨q, rfl, hq⟩
    · simp
    · rcases prefix_append q _ _ hq with h | ⟨s, rfl, h⟩
      · have := ih1 q h
        simp
        omega
      · have hc := count_print inner
        rcases List.prefix_cons_iff.1 h with rfl | ⟨u, rfl, hu⟩
        · simp [hc]
        · have := ih2 u hu
          simp [List.count_append, hc]
          omega

theorem external_iff (g : Grammar) (x : Items) : external g x = true ↔ Outside g x := by
  induction x with
  | nil => simp [external, Outside.nil]
  | stmt ws rest ih =>
    simp only [external, Bool.and_eq_true, ih]
    exact ⟨fun h => .decl h.1 h.2, fun h => by cases h with | decl h hr => exact ⟨h, hr⟩⟩
  | block ws inner rest _ ih =>
    simp only [external, Bool.and_eq_true, ih]
    exact ⟨fun h => .fn h.1.1 h.1.2 h.2, fun h => by cases h with | fn h hi hr => exact ⟨⟨h, hi⟩, hr⟩⟩

/-- What the parser makes of a kernel. -/
theorem kernelAst_ok (g : Grammar) (code : List Tok) (body : Items) (h : kernelAst g code = .ok body) :
    ∃ rest, code ++ [.rb] = body.print ++ .rb :: rest.print ∧ body.valid g = true ∧ external g rest = true := by
  unfold kernelAst at h
  split at h
  · next ws b rest heq =>
    split at h
    · next hv =>
      simp only [Except.ok.injEq] at h
      subst h
      obtain ⟨h1, -⟩ := items_sound _ _ _ _ heq
      simp only [Bool.and_eq_true] at hv
      refine ⟨rest, ?_, hv.1, hv.2⟩
      have hw : words (asFunction code) = words ((Items.block ws b rest).print ++ []) := by rw [← h1]
      have h2 : words (asFunction code) = (["void", "test()"], .lb :: (code ++ [.rb])) := rfl
      rw [h2, Items.print, List.append_assoc, List.cons_append, words_append ws .lb _ (by simp)] at hw
      simp only [Prod.mk.injEq, List.cons.injEq, true_and, List.append_nil] at hw
      exact hw.2
    · simp at h
  · simp at h

end Verif.Whole
