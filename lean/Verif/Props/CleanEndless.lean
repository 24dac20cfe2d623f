import Verif.Lemmas.CleanEndless

/-!
C40: `clean_code` does not always end.
-/

namespace Verif.Clean

/-- A source text with which the loop never ends. -/
def endlessText : List Char := "//aaaaa\n//*aa*\n//a*/aaa/\n//*aa*\n//a*/aa/*a\n**".toList

/-- C40 is false: the removal of comments does not end for some texts, whatever else is removed; the text grows without limit. -/
theorem C40_negation_endless (macros pragmas : Bool) (fuel : Nat) : cleanCode fuel true macros pragmas endlessText = none := by
  have hm : cleanMacros macros pragmas endlessText = endlessText := by
    cases macros <;> cases pragmas <;> decide +kernel
  have h5 : Leads ⟨endlessText, 0, none⟩ (endlessAt 5) := ⟨69, by decide +kernel⟩
  have h := endless (fun j => endlessAt (5 + 2 * j)) (fun j => by
    have := endlessAt_leads (5 + 2 * j) (by omega)
    have e : 5 + 2 * (j + 1) = 5 + 2 * j + 2 := by ring
    show ∃ k, 0 < k ∧ runs k (endlessAt (5 + 2 * j)) = some (endlessAt (5 + 2 * (j + 1)))
    rw [e]
    exact this)
  rw [cleanCode]
  simp only [if_true]
  rw [hm]
  exact endless_from _ _ h5 (fun f => h f 0) fuel

end Verif.Clean
