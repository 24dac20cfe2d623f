import Verif.Model.Generate

/-!
C118: what the generator of machine descriptions does to files.
-/

namespace Verif.Generate

variable {C D : Type}

/-- C118, partial: with another output file than the basis, the output is the updated description of the basis, the basis and all other files stay as
they are. Missing: the basis as output file (`C118_negation_same`), standard output (`C118_negation_stdout`), descriptions which cannot be written
(`C118_negation_render`). -/
theorem C118_update_partial (e : Env C D) (fs : Files C) (p o : String) (first : Bool) (c c' : C) (d : D) (hp : fs p = some c)
    (hd : e.parse c = .ok d) (hr : e.render (e.update d) = .ok c') (hpm : p ≠ "-") (hpo : p ≠ o) (ho : o ≠ "-") :
    ∃ fs', main e fs ⟨some p, o, false, first⟩ = (fs', .done) ∧ fs' o = some c' ∧ ∀ q, q ≠ o → fs' q = fs q := by
  have hs : (put fs o e.empty) p = some c := by simp [put, hpo, hp]
  refine ⟨put (put fs o e.empty) o c', ?_, by simp [put], fun q hq => by simp [put, hq]⟩
  cases first <;> simp [main, parseArgs, openOutput, openMachine, load, finish, ho, hpm, hp, hs, hd, hr, Except.map]

/-- C118, partial: without a basis the output is the updated initial description. -/
theorem C118_new_partial (e : Env C D) (fs : Files C) (o : String) (first : Bool) (c' : C) (hr : e.render (e.update e.initial) = .ok c')
    (ho : o ≠ "-") :
    ∃ fs', main e fs ⟨none, o, false, first⟩ = (fs', .done) ∧ fs' o = some c' ∧ ∀ q, q ≠ o → fs' q = fs q := by
  refine ⟨put (put fs o e.empty) o c', ?_, by simp [put], fun q hq => by simp [put, hq]⟩
  cases first <;> simp [main, parseArgs, openOutput, openMachine, finish, ho, hr, Except.map]

/-- C118, partial: a comparison with the host ends with the result of the comparison, and no file but the output file changes. Missing: the output
file, which is emptied (`C118_negation_compare`). -/
theorem C118_compare_partial (e : Env C D) (fs : Files C) (p o : String) (first : Bool) (c : C) (d : D) (hp : fs p = some c) (hd : e.parse c = .ok d)
    (hpm : p ≠ "-") (hpo : p ≠ o) :
    ∃ fs', main e fs ⟨some p, o, true, first⟩ = (fs', .exit (if e.same d then 0 else 1)) ∧ ∀ q, q ≠ o → fs' q = fs q := by
  by_cases ho : o = "-"
  · refine ⟨fs, ?_, fun q _ => rfl⟩
    cases first <;> simp [main, parseArgs, openOutput, openMachine, load, ho, hpm, hp, hd, Except.map]
  · have hs : (put fs o e.empty) p = some c := by simp [put, hpo, hp]
    refine ⟨put fs o e.empty, ?_, fun q hq => by simp [put, hq]⟩
    cases first <;> simp [main, parseArgs, openOutput, openMachine, load, ho, hpm, hp, hs, hd, Except.map]

/-- C118: a basis that does not exist is rejected, and all files stay as they are, unless the output file was named before the basis, which is then
emptied. -/
theorem C118_missing (e : Env C D) (fs : Files C) (p o : String) (compare first : Bool) (hp : fs p = none) (hpm : p ≠ "-") (hpo : p ≠ o) :
    (main e fs ⟨some p, o, compare, first⟩).2 = .error "ArgumentError" ∧
      ∀ q, (first = false ∨ q ≠ o) → (main e fs ⟨some p, o, compare, first⟩).1 q = fs q := by
  cases first
  · simp [main, parseArgs, openMachine, hpm, hp]
  · have hs : ∀ c, (put fs o c) p = none := fun c => by simp [put, hpo, hp]
    by_cases ho : o = "-"
    · simp [main, parseArgs, openMachine, openOutput, hpm, hp, ho, Except.map]
    · refine ⟨by simp [main, parseArgs, openMachine, openOutput, hpm, hs, ho, Except.map], fun q hq => ?_⟩
      have hq : q ≠ o := by simpa using hq
      have h1 : (main e fs ⟨some p, o, compare, true⟩).1 = put fs o e.empty := by
        simp [main, parseArgs, openMachine, openOutput, hpm, hs, ho, Except.map]
      rw [h1]
      simp [put, hq]

/-- Whatever the arguments are, only the output file (or `<stdout>`) changes. -/
theorem C118_others (e : Env C D) (fs : Files C) (a : Args) (q : String) (hq : q ≠ a.output) (hs : q ≠ "<stdout>") :
    (main e fs a).1 q = fs q := by
  have hput : ∀ (f : Files C) (n : String) (c : C), q ≠ n → put f n c q = f q := fun f n c h => by simp [put, h]
  have hopen : (openOutput e fs a.output).2 q = fs q ∧ q ≠ (openOutput e fs a.output).1 := by
    unfold openOutput; split
    · exact ⟨rfl, hs⟩
    · exact ⟨hput _ _ _ hq, hq⟩
  have hparse : (parseArgs e fs a).1 q = fs q ∧ ∀ m n, (parseArgs e fs a).2 = .ok (m, n) → q ≠ n := by
    unfold parseArgs
    split
    · refine ⟨hopen.1, fun m n h => ?_⟩
      simp only [Except.map] at h
      split at h
      · simp at h
      · simp only [Except.ok.injEq, Prod.mk.injEq] at h
        exact h.2 ▸ hopen.2
    · split
      · exact ⟨rfl, fun m n h => by simp at h⟩
      · refine ⟨hopen.1, fun m n h => ?_⟩
        simp only [Except.ok.injEq, Prod.mk.injEq] at h
        exact h.2 ▸ hopen.2
  have hfin : ∀ (f : Files C) (n : String) (d : D), q ≠ n → (finish e f n d).1 q = f q := by
    intro f n d h; unfold finish; split
    · rfl
    · exact hput _ _ _ h
  unfold main
  rcases hpa : parseArgs e fs a with ⟨fs', r⟩
  rw [hpa] at hparse
  rcases r with m | ⟨m, n⟩
  · exact hparse.1
  · have hn := hparse.2 m n rfl
    have h1 := hparse.1
    simp only
    split
    · split
      · exact h1
      · split <;> exact h1
    · split
      · exact (hfin _ _ _ hn).trans h1
      · split
        · exact h1
        · exact (hfin _ _ _ hn).trans h1

/-- Contents are numbers, zero is empty and no description; each update adds one; large descriptions cannot be written. -/
def env : Env Nat Nat where
  empty := 0
  parse c := if c = 0 then .error "TypeError" else .ok c
  initial := 1
  update d := d + 1
  render d := if d < 100 then .ok d else .error "TypeError"
  same d := d == 7

def fs : Files Nat := fun q => if q = "a.yml" then some 5 else if q = "b.yml" then some 9 else if q = "c.yml" then some 100 else none

example : (main env fs ⟨some "a.yml", "b.yml", false, false⟩).2 = .done ∧ (main env fs ⟨some "a.yml", "b.yml", false, false⟩).1 "b.yml" = some 6 ∧
    (main env fs ⟨some "a.yml", "b.yml", false, false⟩).1 "a.yml" = some 5 := by decide

example : (main env fs ⟨none, "b.yml", false, true⟩).1 "b.yml" = some 2 := by decide

example : (main env fs ⟨some "a.yml", "b.yml", true, false⟩).2 = .exit 1 := by decide

example : (main env fs ⟨some "d.yml", "b.yml", false, false⟩).2 = .error "ArgumentError" ∧
    (main env fs ⟨some "d.yml", "b.yml", false, false⟩).1 "b.yml" = some 9 := by decide

/-- C118 does not hold: with the same file as basis and output, whose description cannot be read from an empty text, the run ends in an error and the
description is lost. -/
theorem C118_negation_same (e : Env C D) (fs : Files C) (p : String) (first : Bool) (c : C) (m : String) (hp : fs p = some c) (hne : p ≠ "-")
    (hempty : e.parse e.empty = .error m) :
    ∃ fs', main e fs ⟨some p, p, false, first⟩ = (fs', .error m) ∧ fs' p = some e.empty := by
  refine ⟨put fs p e.empty, ?_, by simp [put]⟩
  cases first <;> simp [main, parseArgs, openOutput, openMachine, load, hne, hp, hempty, put, Except.map]

example : (main env fs ⟨some "a.yml", "a.yml", false, false⟩).1 "a.yml" = some 0 := by decide

/-- C118 does not hold: a comparison with the host empties the output file, which must be given. -/
theorem C118_negation_compare (e : Env C D) (fs : Files C) (p o : String) (first : Bool) (c : C) (d : D) (hp : fs p = some c)
    (hd : e.parse c = .ok d) (hpm : p ≠ "-") (hpo : p ≠ o) (ho : o ≠ "-") : (main e fs ⟨some p, o, true, first⟩).1 o = some e.empty := by
  have hs : (put fs o e.empty) p = some c := by simp [put, hpo, hp]
  have ht : (put fs o e.empty) o = some e.empty := by simp [put]
  cases first <;> simp [main, parseArgs, openOutput, openMachine, load, ho, hpm, hp, hs, ht, hd, Except.map]

example : (main env fs ⟨some "a.yml", "b.yml", true, false⟩).1 "b.yml" = some 0 := by decide

/-- C118 does not hold: the description for standard output is written to a file of the name `<stdout>`. -/
theorem C118_negation_stdout (e : Env C D) (fs : Files C) (p : String) (first : Bool) (c c' : C) (d : D) (hp : fs p = some c) (hd : e.parse c = .ok d)
    (hpm : p ≠ "-") (hr : e.render (e.update d) = .ok c') : (main e fs ⟨some p, "-", false, first⟩).1 "<stdout>" = some c' := by
  cases first <;> simp [main, parseArgs, openOutput, openMachine, load, finish, hpm, hp, hd, hr, Except.map, put]

example : (main env fs ⟨some "a.yml", "-", false, false⟩).1 "<stdout>" = some 6 := by decide

/-- C118 does not hold: the description on standard input is looked up in a file of the name `<stdin>`. -/
theorem C118_negation_stdin (e : Env C D) (fs : Files C) (o : String) (first : Bool) (h : fs "<stdin>" = none) (ho : o ≠ "<stdin>") :
    (main e fs ⟨some "-", o, false, first⟩).2 = .error "FileNotFoundError" := by
  by_cases hm : o = "-"
  · cases first <;> simp [main, parseArgs, openOutput, openMachine, load, hm, h, Except.map]
  · have ht : (put fs o e.empty) "<stdin>" = none := by simp [put, h, Ne.symm ho]
    cases first <;> simp [main, parseArgs, openOutput, openMachine, load, hm, ht, Except.map]

example : (main env fs ⟨some "-", "b.yml", false, false⟩).2 = .error "FileNotFoundError" := by decide

/-- C118 does not hold: if the description cannot be written, an older output file is lost. -/
theorem C118_negation_render (e : Env C D) (fs : Files C) (p o : String) (first : Bool) (c : C) (d : D) (m : String) (hp : fs p = some c)
    (hd : e.parse c = .ok d) (hr : e.render (e.update d) = .error m) (hpm : p ≠ "-") (hpo : p ≠ o) (ho : o ≠ "-") :
    (main e fs ⟨some p, o, false, first⟩).1 o = some e.empty := by
  have hs : (put fs o e.empty) p = some c := by simp [put, hpo, hp]
  have ht : (put fs o e.empty) o = some e.empty := by simp [put]
  cases first <;> simp [main, parseArgs, openOutput, openMachine, load, finish, ho, hpm, hp, hs, ht, hd, hr, Except.map]

example : (main env fs ⟨some "c.yml", "b.yml", false, false⟩).1 "b.yml" = some 0 := by decide

end Verif.Generate
