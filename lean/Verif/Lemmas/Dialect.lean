import Verif.Model.Dialect

/-!
Lemmas for C161.
-/

namespace Verif.Dialect

variable {L : Type}

theorem parseFile_ok (lib : Library L) (d s : Dialect) (code : List L) :
    parseFile lib d code = .ok s ↔ s = d ∧ Readable lib d code := by
  unfold parseFile Readable
  split
  · rename_i h
    rw [List.all_eq_true] at h
    simp only [Except.ok.injEq, eq_comm (a := d)]
    exact ⟨fun e => ⟨e, h⟩, fun e => e.1⟩
  · rename_i h
    rw [List.all_eq_true] at h
    simp [h]

theorem parseAsm_ok (v : List Nat) (lib : Library L) (code : List L) (s : Dialect) (h : both v = true) :
    parseAsm v lib code = .ok s ↔ IsIn lib code s := by
  unfold parseAsm
  rw [if_pos h]
  by_cases hi : Readable lib .intel code
  · have e := (parseFile_ok lib .intel .intel code).mpr ⟨rfl, hi⟩
    rw [e]
    cases s <;> simp [IsIn, hi]
  · cases hp : parseFile lib .intel code with
    | ok d => exact absurd ((parseFile_ok _ _ _ _).mp hp).2 hi
    | error m =>
      simp only [parseFile_ok]
      cases s <;> simp [IsIn, hi]

theorem parseAsm_old (v : List Nat) (lib : Library L) (code : List L) (s : Dialect) (h : both v = false) :
    parseAsm v lib code = .ok s ↔ s = lib.default ∧ Readable lib lib.default code := by
  unfold parseAsm
  rw [if_neg (by simp [h]), parseFile_ok]

theorem detect_ok (v : List Nat) (lib : Library L) (code : List L) (s : Dialect) (h : both v = true) :
    detect v lib code = .ok s ↔ IsIn lib code s := by
  unfold detect
  rw [if_pos h]
  by_cases hi : Readable lib .intel code
  · have e := (parseFile_ok lib .intel .intel code).mpr ⟨rfl, hi⟩
    rw [e]
    cases s <;> simp [IsIn, hi]
  · cases hp : parseFile lib .intel code with
    | ok d => exact absurd ((parseFile_ok _ _ _ _).mp hp).2 hi
    | error m =>
      cases hq : parseFile lib .att code with
      | ok d =>
        have := ((parseFile_ok _ _ _ _).mp hq).2
        cases s <;> simp [IsIn, hi, this]
      | error m =>
        have : ¬ Readable lib .att code := fun ha => by
          rw [(parseFile_ok lib .att .att code).mpr ⟨rfl, ha⟩] at hq
          cases hq
        cases s <;> simp [IsIn, hi, this]

theorem isIn_readable (lib : Library L) (code : List L) (s : Dialect) (h : IsIn lib code s) : Readable lib s code := by
  cases s
  · exact h
  · exact h.2

/-- Code with something inserted that can be read. -/
theorem readable_insert (lib : Library L) (d : Dialect) (code x y : List L) (b e : Nat) (hx : Readable lib d x) (hy : Readable lib d y)
    (h : Readable lib d code) : Readable lib d (code.take b ++ x ++ (code.take e).drop b ++ y ++ code.drop e) := by
  intro l hl
  simp only [List.mem_append] at hl
  rcases hl with (((hl | hl) | hl) | hl) | hl
  · exact h l (List.mem_of_mem_take hl)
  · exact hx l hl
  · exact h l (List.mem_of_mem_take (List.mem_of_mem_drop hl))
  · exact hy l hl
  · exact h l (List.mem_of_mem_drop hl)

/-- Nothing of the code is lost if something is inserted. -/
theorem mem_insert (code x y : List L) (b e : Nat) (l : L) (h : l ∈ code) :
    l ∈ code.take b ++ x ++ (code.take e).drop b ++ y ++ code.drop e := by
  simp only [List.mem_append]
  rw [← List.take_append_drop e code, List.mem_append] at h
  rcases h with h | h
  · rw [← List.take_append_drop b (code.take e), List.mem_append] at h
    rcases h with h | h
    · refine .inl (.inl (.inl (.inl ?_)))
      rw [List.take_take] at h
      exact (List.take_prefix_take_left (Nat.min_le_left b e)).subset h
    · exact .inl (.inl (.inr h))
  · exact .inr h

theorem mark_ok (v : List Nat) (lib : Library L) (choose : Dialect → List L → Except String (Nat × Nat)) (code marked : List L)
    (h : mark v lib choose code = .ok marked) : ∃ d b e s, parseAsm v lib code = .ok d ∧ choose d code = .ok (b, e) ∧
      detect v lib code = .ok s ∧ marked = code.take b ++ lib.start (markerIn v lib s) ++ (code.take e).drop b ++
        lib.stop (markerIn v lib s) ++ code.drop e := by
  unfold mark at h
  split at h
  · simp at h
  · rename_i d hd
    split at h
    · simp at h
    · rename_i b e hb
      split at h
      · simp at h
      · rename_i s hs
        simp only [Except.ok.injEq] at h
        exact ⟨d, b, e, s, hd, hb, hs, h.symm⟩

theorem isIn_unique (lib : Library L) (code : List L) (s t : Dialect) (h : IsIn lib code s) (h' : IsIn lib code t) : s = t := by
  cases s <;> cases t <;> simp_all [IsIn]

theorem mark_new (v : List Nat) (lib : Library L) (choose : Dialect → List L → Except String (Nat × Nat)) (code marked : List L)
    (hv : both v = true) (h : mark v lib choose code = .ok marked) : ∃ d b e, IsIn lib code d ∧ choose d code = .ok (b, e) ∧
      marked = code.take b ++ lib.start d ++ (code.take e).drop b ++ lib.stop d ++ code.drop e := by
  obtain ⟨d, b, e, s, h1, h2, h3, h4⟩ := mark_ok v lib choose code marked h
  rw [parseAsm_ok _ _ _ _ hv] at h1
  rw [detect_ok _ _ _ _ hv] at h3
  have := isIn_unique lib code s d h3 h1
  subst this
  exact ⟨s, b, e, h1, h2, by rw [h4, markerIn, if_pos hv]⟩

theorem isIn_insert (lib : Library L) (hl : lib.Sound) (code : List L) (d : Dialect) (b e : Nat) (h : IsIn lib code d) :
    IsIn lib (code.take b ++ lib.start d ++ (code.take e).drop b ++ lib.stop d ++ code.drop e) d := by
  have hr := readable_insert lib d code _ _ b e (hl d).1 (hl d).2 (isIn_readable lib code d h)
  cases d
  · exact hr
  · exact ⟨fun hi => h.1 fun l hm => hi l (mem_insert code _ _ b e l hm), hr⟩

end Verif.Dialect
