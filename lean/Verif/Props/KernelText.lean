import Verif.Lemmas.KernelText

/-!
C128: comments of a kernel are not parsed.
-/

namespace Verif.KernelText

open Verif.Text Verif.Spec

/-- C128: whatever the code is, the lines that are parsed are beginnings of its lines, so that line numbers in messages are those of the file. -/
theorem C128_lines (code : List Char) :
    ∃ body, parsed code = "#line 0 \nvoid test() {\n#line 1 \n".toList ++ body ++ "\n#line 999 \n}".toList ∧
      List.Forall₂ (fun new old => new <+: old) (splitNl body) (splitNl code) := by
  refine ⟨stripComments code, parsed_eq code, ?_⟩
  have hpre : ∀ l, cutLine l <+: l := by
    intro l
    simp only [cutLine]
    split
    · exact List.take_prefix _ _
    · exact List.prefix_rfl
  unfold stripComments
  rw [splitNl_joinNl _ (by simp [splitNl_ne_nil])]
  · rw [List.forall₂_map_left_iff, List.forall₂_same]
    exact fun l _ => hpre l
  · intro l hl
    obtain ⟨m, hm, rfl⟩ := List.mem_map.1 hl
    exact fun h => splitNl_no_newline _ m hm ((hpre m).subset h)

/-- C128, partial: of a code whose comments are line comments exactly the code without its comments is parsed. Missing: block comments, which are parsed
(`C128_negation_block`); `KernelCode` is given cleaned code by the command line (`C128_cleaned`). -/
theorem C128_parsed_partial (code : List Char) (h : ∀ pre suf, code = pre ++ suf → endMode .code pre ≠ .block) :
    parsed code = "#line 0 \nvoid test() {\n#line 1 \n".toList ++ stripC .code code ++ "\n#line 999 \n}".toList := by
  have hs := lines_spec (splitNl code) (splitNl_ne_nil code) (splitNl_no_newline code) (by rw [joinNl_splitNl]; exact h)
  rw [joinNl_splitNl] at hs
  rw [parsed_eq, hs]
  rfl

def commented : List Char := "double a[N]; // not /* here\nfor (i = 0; i < N; ++i) a[i] = 1. / 2; // end".toList

example : parsed commented = "#line 0 \nvoid test() {\n#line 1 \ndouble a[N]; \nfor (i = 0; i < N; ++i) a[i] = 1. / 2; \n#line 999 \n}".toList := by
  decide +kernel

/-- The hypothesis of the partial theorem is met. -/
example : ∀ pre suf, commented = pre ++ suf → endMode .code pre ≠ .block := by
  have h : ∀ pre ∈ commented.inits, endMode .code pre ≠ .block := by decide +kernel
  intro pre suf hs
  exact h pre (List.mem_inits _ _ |>.2 ⟨suf, hs.symm⟩)

/-- C128: code from which the comments have been removed (C65) is parsed as it is. -/
theorem C128_cleaned (code : List Char) :
    parsed (stripC .code code) = "#line 0 \nvoid test() {\n#line 1 \n".toList ++ stripC .code code ++ "\n#line 999 \n}".toList := by
  obtain ⟨h1, h2⟩ := strip_free _ (strip_closed code.length code le_rfl .code).1
  rw [C128_parsed_partial _ h2, h1]

/-- C128 does not hold: block comments are left, and the end of one may be cut. -/
theorem C128_negation_block : stripComments "a; /* x */ b;".toList = "a; /* x */ b;".toList ∧ stripComments "a; /* http://x */ b;".toList = "a; /* http:".toList ∧
    stripC .code "a; /* http://x */ b;".toList = "a;  b;".toList := by
  refine ⟨?_, ?_, ?_⟩ <;> decide +kernel

end Verif.KernelText
