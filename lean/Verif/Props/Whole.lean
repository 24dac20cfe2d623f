import Verif.Lemmas.Whole

/-!
C159: which part of the code of a kernel is analysed.
-/

namespace Verif.Whole

/-- The claim of C159: code that is accepted is analysed as a whole. -/
def C159Claim (g : Grammar) : Prop := ∀ code body, kernelAst g code = .ok body → body.print = code

/-- C159: valid statements are accepted, and exactly they are analysed. -/
theorem C159_accepted (g : Grammar) (body : Items) (h : body.valid g = true) : kernelAst g body.print = .ok body := by
  have h1 := items_complete (.block ["void", "test()"] body .nil) [] (body.print.length + 5) (.inl rfl)
    (by simp [Items.print])
  have h2 : (Items.block ["void", "test()"] body .nil).print ++ [] = asFunction body.print := by simp [Items.print, asFunction]
  rw [h2] at h1
  simp [kernelAst, h1, h, external]

/-- C159, partial: what is analysed are valid statements at the beginning of the code, and all of the code exactly if its braces match. Missing: code with
other braces is not always rejected (`C159_negation`). -/
theorem C159_whole_partial (g : Grammar) (code : List Tok) (body : Items) (h : kernelAst g code = .ok body) :
    body.valid g = true ∧ body.print <+: code ∧ (body.print = code ↔ Matched code) := by
  obtain ⟨rest, h1, h2, -⟩ := kernelAst_ok g code body h
  refine ⟨h2, ?_⟩
  rcases List.eq_nil_or_concat rest.print with h3 | ⟨l, t, h3⟩
  · rw [h3] at h1
    have : code = body.print := List.append_cancel_right h1
    subst this
    exact ⟨List.prefix_refl _, by simpa using matched_print body⟩
  · rw [h3] at h1
    have h4 : code ++ [.rb] = (body.print ++ .rb :: l) ++ [t] := by simpa using h1
    obtain ⟨h5, -⟩ := List.append_inj' h4 rfl
    subst h5
    refine ⟨List.prefix_append _ _, ?_⟩
    constructor
    · intro he
      have := congrArg List.length he
      simp at this
    · intro hm
      have := hm (body.print ++ [.rb]) ⟨l, by simp⟩
      have hc := count_print body
      simp only [List.count_append] at this
      simp at this
      omega

/-- C159: exactly which code is accepted: statements, or statements, an unmatched closing brace and declarations or functions, the last of which lacks its
closing brace. -/
theorem C159_accepted_iff (g : Grammar) (code : List Tok) (body : Items) :
    kernelAst g code = .ok body ↔ body.valid g = true ∧
      (code = body.print ∨ ∃ rest, Outside g rest ∧ code ++ [.rb] = body.print ++ .rb :: rest.print) := by
  constructor
  · intro h
    obtain ⟨rest, h1, h2, h3⟩ := kernelAst_ok g code body h
    exact ⟨h2, .inr ⟨rest, (external_iff g rest).1 h3, h1⟩⟩
  · rintro ⟨h2, rfl | ⟨rest, h3, h1⟩⟩
    · exact C159_accepted g body h2
    · have hl := congrArg List.length h1
      have h4 := items_complete (.block ["void", "test()"] body rest) [] (code.length + 5) (.inl rfl)
        (by simp [Items.print] at hl ⊢; omega)
      have h5 : (Items.block ["void", "test()"] body rest).print ++ [] = asFunction code := by simp [Items.print, asFunction, h1]
      rw [h5] at h4
      simp [kernelAst, h4, h2, (external_iff g rest).2 h3]

/-- Some C: declarations and assignments, loops, and functions without parameters. -/
def sampleGrammar : Grammar where
  stmt := fun ws => ws.length ≤ 3
  head := fun ws => ws = ["for", "(int i=0; i<N; i++)"] ∨ ws = []
  decl := fun ws => ws.head? = some "double" || ws.isEmpty
  fn := fun ws => ws.length = 2 ∧ ws.head? = some "void"

/-- A loop over two assignments. -/
def sampleBody : Items :=
  .stmt ["double", "a[N]"] (.block ["for", "(int i=0; i<N; i++)"] (.stmt ["a[i]", "=", "1"] (.stmt ["b[i]", "=", "2"] .nil)) .nil)

example : sampleBody.valid sampleGrammar = true ∧ kernelAst sampleGrammar sampleBody.print = .ok sampleBody := ⟨by decide +kernel, rfl⟩

/-- A brace too many after the first loop, and another loop that would be analysed otherwise. -/
def lostCode : List Tok :=
  [.word "double", .word "a[N]", .semi, .word "for", .word "(int i=0; i<N; i++)", .lb, .word "a[i]", .word "=", .word "1", .semi, .rb, .rb,
    .word "void", .word "more()", .lb, .word "b[i]", .word "=", .word "2", .semi]

/-- C159 does not hold: code after an unmatched closing brace is dropped without a message. -/
theorem C159_negation : ¬ C159Claim sampleGrammar := by
  intro h
  have := h lostCode (.stmt ["double", "a[N]"] (.block ["for", "(int i=0; i<N; i++)"] (.stmt ["a[i]", "=", "1"] .nil) .nil)) rfl
  exact absurd this (by decide +kernel)

end Verif.Whole
