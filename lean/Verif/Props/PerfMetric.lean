import Verif.Lemmas.PerfMetric
import Verif.Props.Machine

/-!
C92: counters in performance metrics.
-/

namespace Verif.PerfMetric

open Verif.Counters

/-- C92: in a metric whose counters are delimited by separators, exactly these counters are found, from left to right.
Missing: counters next to a minus or other characters of counters (`C92_negation_minus`). -/
theorem C92_found_partial (p : Piece) (rest : List (Char × Piece)) (hp : p.Ok)
    (hrest : ∀ q ∈ rest, Separator q.1 ∧ q.2.Ok) : findAll 0 (render id p rest) = counters p rest := by
  induction rest generalizing p with
  | nil =>
    have := findAll_piece p hp
    cases p <;> simpa [render, counters, List.filterMap_cons, Piece.counter?, Piece.text] using this
  | cons q rest ih =>
    have hq := hrest q (by simp)
    have e : render id p (q :: rest) = p.text ++ q.1 :: render id q.2 rest := by
      cases p <;> simp [render, Piece.text]
    rw [e, findAll_stop 0 _ _ q.1 (not_inCounter _ hq.1) (by simp), findAll_piece p hp,
      ih q.2 hq.2 fun x hx => hrest x (by simp [hx])]
    cases p <;> simp [counters, List.filterMap_cons, Piece.counter?]

/-- C92: the text for sympy is the metric with each counter replaced by its own name, and the names lead back to the
counters. Missing: counters that occur in others (`C92_negation_inside`), and counters that differ only in special
characters (`C92_negation_name`). -/
theorem C92_renamed_partial (p : Piece) (rest : List (Char × Piece)) (hp : p.Ok)
    (hrest : ∀ q ∈ rest, Separator q.1 ∧ q.2.Ok)
    (hinside : ∀ c ∈ counters p rest, ∀ e ∈ counters p rest, e <:+: c → e = c)
    (hname : ∀ c ∈ counters p rest, ∀ e ∈ counters p rest, varName e = varName c → e = c) :
    temporary (render id p rest) = render varName p rest ∧
    ∀ c ∈ counters p rest, (names (findAll 0 (render id p rest))).lookup (varName c) = some c := by
  have hf := C92_found_partial p rest hp hrest
  have hlook : ∀ c ∈ counters p rest, (names (counters p rest)).lookup (varName c) = some c := fun c hc =>
    lookup_fold _ [] c (hname c hc) (.inl hc)
  rw [hf]
  refine ⟨?_, hlook⟩
  have hok : ∀ q ∈ p :: rest.map (·.2), q.Ok := by
    intro q hq
    rcases List.mem_cons.1 hq with rfl | hq
    · exact hp
    · obtain ⟨x, hx, rfl⟩ := List.mem_map.1 hq
      exact (hrest x hx).2
  have hcnt : ∀ c ∈ counters p rest, IsCounter c := by
    intro c hc
    obtain ⟨q, hq, h⟩ := List.mem_filterMap.1 hc
    have := hok q hq
    cases q with
    | plain w => cases h
    | counter w => simp only [Piece.counter?, Option.some.injEq] at h; subst h; exact this
  have hd : ∀ e ∈ names (counters p rest), ∃ c ∈ counters p rest, e = (varName c, c) := fun e he =>
    (mem_names _ [] e he).resolve_left (by simp)
  unfold temporary
  rw [hf]
  apply replaceAll_render
  · intro q hq e he
    obtain ⟨c, hc, rfl⟩ := hd e he
    refine ⟨?_, not_separator c (hcnt c hc) q.1 (hrest q hq).1⟩
    rintro h
    have := counter_colon c (hcnt c hc)
    simp only at h
    simp [h] at this
  · rintro q hq w rfl
    refine replaceAll_plain _ ?_ w (hok _ hq)
    intro e he
    obtain ⟨c, hc, rfl⟩ := hd e he
    exact counter_colon c (hcnt c hc)
  · intro c hc
    refine replaceAll_counter _ c (counter_colon c (hcnt c hc)) ?_ (mem_of_lookup _ _ _ (hlook c hc))
    intro e he
    obtain ⟨b, hb, rfl⟩ := hd e he
    exact ⟨counter_colon b (hcnt b hb), rfl, or_iff_not_imp_right.2 fun h => hinside c hc b hb (not_not.1 h)⟩

/-- Names consist of characters of Python identifiers, and do not begin with a digit. -/
theorem C92_identifier (c : List Char) (h : IsCounter c) :
    ∃ t, varName c = 'S' :: t ∧ ∀ x ∈ t, x.isAlphanum = true ∨ x = '_' := by
  refine ⟨['Y', 'M'] ++ c.map clean, rfl, ?_⟩
  intro x hx
  simp only [List.mem_append, List.mem_cons, List.not_mem_nil, or_false, List.mem_map] at hx
  rcases hx with (rfl | rfl) | ⟨y, hy, rfl⟩
  · exact .inl (by decide)
  · exact .inl (by decide)
  · unfold clean
    split
    · exact .inr rfl
    · rename_i hn
      by_contra hc
      simp only [not_or, Char.isAlphanum, Bool.or_eq_true] at hc
      refine not_separator c h y ⟨by simpa using hc.1.1, by simpa using hc.1.2, ?_⟩ hy
      simp only [List.mem_cons, List.not_mem_nil, or_false, not_or] at hn ⊢
      tauto

/-- C92: the event of a counter consists of its parts. -/
theorem C92_event (event register : List Char) (parameters : List (List Char)) (he : Word Name event)
    (hr : Word Register register) (hp : ∀ q ∈ parameters, Word Parameter q) :
    Machine.parseEvent (event ++ ':' :: register ++ parameters.flatMap (':' :: ·)) =
      .ok ⟨event, register, parameters⟩ := by
  have e : event ++ ':' :: register ++ parameters.flatMap (':' :: ·) =
      Machine.eventStr ⟨event, register, parameters⟩ := by
    unfold Machine.eventStr
    simp only [List.append_assoc, List.cons_append]
    have : ∀ (x : List Char) (l : List (List Char)), [':'].intercalate (x :: l) = x ++ l.flatMap (':' :: ·) := by
      intro x l
      induction l generalizing x with
      | nil => simp [List.intercalate]
      | cons y l ih => rw [List.intercalate_cons_cons, ih]; simp
    rw [this]
    simp
  rw [e]
  apply Machine.C31_format_parse
  · intro h; have := isName_of _ (he.2 _ h); revert this; decide
  · intro h; have := isReg_of _ (hr.2 _ h); revert this; decide
  · intro q hq h; have := isParam_of _ ((hp q hq).2 _ h); revert this; decide

/-- A metric with two counters, one of them with a parameter and used twice. -/
example : ∃ p rest, p.Ok ∧ (∀ q ∈ rest, Separator q.1 ∧ q.2.Ok) ∧
    (∀ c ∈ counters p rest, ∀ e ∈ counters p rest, e <:+: c → e = c) ∧
    (∀ c ∈ counters p rest, ∀ e ∈ counters p rest, varName e = varName c → e = c) ∧
    render id p rest = "L1D:MBOX[0-3]:T=1 +2* (L2:PMC1)/L1D:MBOX[0-3]:T=1".toList ∧
    render varName p rest = "SYML1D_MBOX_0_3__T_1 +2* (SYML2_PMC1)/SYML1D_MBOX_0_3__T_1".toList := by
  have h1 : IsCounter "L1D:MBOX[0-3]:T=1".toList :=
    ⟨"L1D".toList, "MBOX[0-3]".toList, ["T=1".toList], ⟨by decide, by unfold Name; decide⟩, ⟨by decide, by unfold Register; decide⟩,
      by simp only [List.mem_singleton, forall_eq]; exact ⟨by decide, by unfold Parameter; decide⟩, by decide⟩
  have h2 : IsCounter "L2:PMC1".toList :=
    ⟨"L2".toList, "PMC1".toList, [], ⟨by decide, by unfold Name; decide⟩, ⟨by decide, by unfold Register; decide⟩, by simp, by decide⟩
  refine ⟨.counter "L1D:MBOX[0-3]:T=1".toList, [(' ', .plain []), ('+', .plain ['2']), ('*', .plain []), (' ', .plain []),
    ('(', .counter "L2:PMC1".toList), (')', .plain []), ('/', .counter "L1D:MBOX[0-3]:T=1".toList)], h1, ?_, ?_, ?_, ?_, ?_⟩
  · simp only [List.mem_cons, List.not_mem_nil, or_false, forall_eq_or_imp, forall_eq, Piece.Ok, Separator, h1, h2, not_false_eq_true, and_true]
    and_intros <;> decide
  · decide
  · decide
  · decide
  · decide

/-- C92 is false for differences without blanks: the minus is taken as part of the register. -/
theorem C92_negation_minus : findAll 0 "A:PMC0-B:PMC1".toList = ["A:PMC0-B:PMC1".toList] := by decide +kernel

/-- C92 is false if a counter occurs in another one: the longer one is torn. -/
theorem C92_negation_inside :
    findAll 0 "A:PMC0+B_A:PMC0".toList = ["A:PMC0".toList, "B_A:PMC0".toList] ∧
    temporary "A:PMC0+B_A:PMC0".toList = "SYMA_PMC0+B_SYMA_PMC0".toList ∧
    temporary "A:PMC0+A:PMC0:X=1".toList = "SYMA_PMC0+SYMA_PMC0:X=1".toList := by decide +kernel

/-- C92 is false for counters that differ only in special characters: the first one is not replaced. -/
theorem C92_negation_name :
    findAll 0 "A:PMC|0+A:PMC-0".toList = ["A:PMC|0".toList, "A:PMC-0".toList] ∧
    names ["A:PMC|0".toList, "A:PMC-0".toList] = [("SYMA_PMC_0".toList, "A:PMC-0".toList)] ∧
    temporary "A:PMC|0+A:PMC-0".toList = "A:PMC|0+SYMA_PMC_0".toList := by decide +kernel

end Verif.PerfMetric
