import Verif.Spec.Settings
import Verif.Lemmas.Options

/-! Lemmas for C147. -/

namespace Verif.Settings

open Verif.Options Verif.CoreRuns Verif.IntText

theorem validate_own (words : List String) (v r : Val) : validate words v (some v) = .ok r ↔ Stands words v r := by
  unfold validate
  cases v with
  | num n =>
    simp only [List.mem_map, reduceCtorEq, and_false, exists_false, if_false, intOf]
    constructor
    · rintro h; cases h; exact .num n
    · rintro ⟨⟩; rfl
  | text s =>
    have hm : Val.text s ∈ words.map Val.text ↔ s ∈ words := by simp
    by_cases h : s ∈ words
    · rw [if_pos (hm.2 h)]
      constructor
      · rintro h'; cases h'; exact .word s h
      · rintro ⟨⟩
        · rfl
        · contradiction
    · rw [if_neg (fun h' => h (hm.1 h'))]
      simp only [intOf]
      cases hi : pyInt s with
      | none =>
        constructor
        · rintro ⟨⟩
        · rintro ⟨⟩
          · contradiction
          · rename_i n h1 h2
            rw [← pyInt_iff, hi] at h2
            cases h2
      | some n =>
        constructor
        · rintro h'; cases h'; exact .written s n h ((pyInt_iff s n).1 hi)
        · rintro ⟨⟩
          · contradiction
          · rename_i m h1 h2
            rw [← pyInt_iff, hi] at h2
            cases h2
            rfl

theorem validate_error (words : List String) (v : Val) (e : String) (h : validate words v (some v) = .error e) : e = "SystemExit" := by
  unfold validate at h
  split at h
  · cases h
  · simp only at h
    split at h
    · cases h
    · cases h; rfl

theorem validate_word (words : List String) (s : String) (h : s ∈ words) (a : Option Val) : validate words (.text s) a = .ok (.text s) := by
  unfold validate
  rw [if_pos (by simpa using h)]

theorem validated_own (a : Args) (b i : Val) :
    validated (some a) a.asmBlock a.pointerIncrement = .ok (b, i) ↔
      Stands ["auto", "manual"] a.asmBlock b ∧ Stands ["auto", "auto_with_manual_fallback", "manual"] a.pointerIncrement i := by
  rw [← validate_own, ← validate_own]
  unfold validated
  simp only [Option.map_some]
  cases validate ["auto", "manual"] a.asmBlock (some a.asmBlock) with
  | error e => simp
  | ok b' =>
    cases validate ["auto", "auto_with_manual_fallback", "manual"] a.pointerIncrement (some a.pointerIncrement) with
    | error e => simp
    | ok i' => simp

theorem validated_error (a : Args) (e : String) (h : validated (some a) a.asmBlock a.pointerIncrement = .error e) : e = "SystemExit" := by
  unfold validated at h
  simp only [Option.map_some] at h
  cases h1 : validate ["auto", "manual"] a.asmBlock (some a.asmBlock) with
  | error e' => rw [h1] at h; cases h; exact validate_error _ _ _ h1
  | ok b' =>
    rw [h1] at h
    cases h2 : validate ["auto", "auto_with_manual_fallback", "manual"] a.pointerIncrement (some a.pointerIncrement) with
    | error e' => rw [h2] at h; cases h; exact validate_error _ _ _ h2
    | ok i' => rw [h2] at h; cases h

theorem data_args (a : Args) (kw : Kw) (p : Kind) (h : a.cachePredictor = named p) : data (some a) kw = .ok ⟨a.cores, p, a.verbose⟩ := by
  unfold data
  cases p <;> simp [h, named]

end Verif.Settings
