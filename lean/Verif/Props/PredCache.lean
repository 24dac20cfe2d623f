import Verif.Model.PredCache
import Verif.Props.Paths

/-!
C87: reuse of cache predictions.
-/

namespace Verif.PredCache

open Verif.Paths

variable {K V M R : Type}

/-- Dependencies and name are proper file names. -/
def ProperNames (deps : List (List Char)) (name : List Char) : Prop := (∀ d ∈ deps, Proper d) ∧ Proper name

theorem location_inj (cwd file : List Char) (hcwd : cwd.head? = some '/') (deps deps' : List (List Char))
    (name name' : List Char) (h : ProperNames deps name) (h' : ProperNames deps' name')
    (he : location cwd file none deps name = location cwd file none deps' name') : deps = deps' ∧ name = name' := by
  have hbare : ∀ ds : List (List Char), (∀ d ∈ ds, Proper d) → ds.map bare = ds := by
    intro ds hd
    rw [List.map_congr_left (g := id), List.map_id]
    intro d hm
    unfold bare
    rw [id, List.filter_eq_self]
    intro c hc
    have := (hd d hm).2.2.2
    simp only [bne_iff_ne]
    rintro rfl
    exact this hc
  have hb : ∀ ds : List (List Char), (∀ d ∈ ds, Proper d) → ∀ d ∈ ds, Proper (bare d) := by
    intro ds hd d hm
    have := hbare [d] (by simpa using hd d hm)
    simp only [List.map_cons, List.map_nil, List.cons.injEq, and_true] at this
    rw [this]
    exact hd d hm
  have e := congrArg (resolve (resolve [] cwd)) he
  rw [resolve_location cwd file none deps name hcwd (by simp [setupNames]) (hb deps h.1) h.2,
    resolve_location cwd file none deps' name' hcwd (by simp [setupNames]) (hb deps' h'.1) h'.2,
    List.append_singleton_inj, hbare _ h.1, hbare _ h'.1] at e
  simpa [setupNames] using e

/-- The event only predicts for the machine file `p`. -/
def OnlyFor (p : List Char) : Event K V M → Prop
  | .predict q deps name => q = p ∧ ProperNames deps name
  | _ => True

/-- Stored results are older than now, and right if they are fresh. -/
def Good (cwd file : List Char) (ana : K → V → M → List (List Char) → List Char → R) (p : List Char) (w : World K V M R) :
    Prop :=
  (∀ q r t, w.disk q = some (r, t) → t < w.now) ∧
  ∀ deps name, ProperNames deps name → ∀ r t, w.disk (location cwd file none deps name) = some (r, t) →
    fresh w p t = true → r = ana w.kernel.1 w.code.1 (w.machine p).1 deps name

theorem fresh_iff (w : World K V M R) (p : List Char) (t : Nat) :
    fresh w p t = true ↔ (w.machine p).2 < t ∧ w.code.2 < t ∧ w.kernel.2 < t := by
  unfold fresh
  rw [Bool.and_eq_true, Bool.and_eq_true, decide_eq_true_iff, decide_eq_true_iff, decide_eq_true_iff, and_assoc]

theorem predict_good (cwd file : List Char) (ana : K → V → M → List (List Char) → List Char → R) (p : List Char)
    (w : World K V M R) (h : Good cwd file ana p w) (deps : List (List Char)) (name : List Char) (hn : ProperNames deps name) :
    (predict cwd file ana w p deps name).1 = ana w.kernel.1 w.code.1 (w.machine p).1 deps name := by
  unfold predict
  simp only
  split
  · rename_i r t hd
    split
    · rename_i hf
      exact h.2 deps name hn r t hd hf
    · rfl
  · rfl

theorem step_good (cwd file : List Char) (hcwd : cwd.head? = some '/')
    (ana : K → V → M → List (List Char) → List Char → R) (p : List Char)
    (w : World K V M R) (h : Good cwd file ana p w) (e : Event K V M) (he : OnlyFor p e) :
    Good cwd file ana p (step cwd file ana w e) := by
  obtain ⟨h1, h2⟩ := h
  cases e with
  | kernel k =>
    refine ⟨fun q r t hd => Nat.lt_succ_of_lt (h1 q r t hd), fun deps name hn r t hd hf => ?_⟩
    have := h1 _ r t hd
    rw [fresh_iff] at hf
    simp only [step] at hf
    omega
  | code v =>
    refine ⟨fun q r t hd => Nat.lt_succ_of_lt (h1 q r t hd), fun deps name hn r t hd hf => ?_⟩
    have := h1 _ r t hd
    rw [fresh_iff] at hf
    simp only [step] at hf
    omega
  | machine q m =>
    refine ⟨fun q r t hd => Nat.lt_succ_of_lt (h1 q r t hd), fun deps name hn r t hd hf => ?_⟩
    have := h1 _ r t hd
    by_cases hq : p = q
    · subst hq
      rw [fresh_iff] at hf
      simp only [step, if_true] at hf
      omega
    · rw [fresh_iff] at hf
      simp only [step, if_neg hq] at hf hd ⊢
      exact h2 deps name hn r t hd ((fresh_iff w p t).2 hf)
  | predict q deps0 name0 =>
    obtain ⟨rfl, hn0⟩ := he
    have hres := predict_good cwd file ana q w ⟨h1, h2⟩ deps0 name0 hn0
    refine ⟨fun q' r t hd => ?_, fun deps name hn r t hd hf => ?_⟩
    · simp only [step] at hd ⊢
      split at hd
      · simp only [Option.some.injEq, Prod.mk.injEq] at hd
        omega
      · exact Nat.lt_succ_of_lt (h1 q' r t hd)
    · simp only [step] at hd hf ⊢
      split at hd
      · rename_i hc
        simp only [Option.some.injEq, Prod.mk.injEq] at hd
        obtain ⟨e1, e2⟩ := location_inj cwd file hcwd _ _ _ _ hn hn0 hc.2
        rw [← hd.1, hres, e1, e2]
      · exact h2 deps name hn r t hd hf

/-- C87, partial: a prediction is always that of the current kernel, kerncraft and machine file, cores and constants, after
every history of changes and predictions, if only one machine file is used with the kernel. Missing: several machines
(`C87_negation`). -/
theorem C87_one_machine_partial (cwd file : List Char) (hcwd : cwd.head? = some '/')
    (ana : K → V → M → List (List Char) → List Char → R) (p : List Char) (w : World K V M R) (hw : Start w)
    (h : List (Event K V M)) (hh : ∀ e ∈ h, OnlyFor p e) (deps : List (List Char)) (name : List Char)
    (hn : ProperNames deps name) :
    let w' := run cwd file ana w h
    (predict cwd file ana w' p deps name).1 = ana w'.kernel.1 w'.code.1 (w'.machine p).1 deps name := by
  have key : ∀ w, Good cwd file ana p w → Good cwd file ana p (run cwd file ana w h) := by
    induction h with
    | nil => exact fun w hg => hg
    | cons e es ih =>
      intro w hg
      exact ih (fun x hx => hh x (by simp [hx])) _ (step_good cwd file hcwd ana p w hg e (hh e (by simp)))
  refine predict_good cwd file ana p _ (key w ⟨fun q r t hd => ?_, fun deps name _ r t hd => ?_⟩) deps name hn
  · rw [hw.1] at hd; cases hd
  · rw [hw.1] at hd; cases hd

/-- C87: a prediction that is repeated at once is not calculated again. -/
theorem C87_reused (cwd file : List Char) (ana : K → V → M → List (List Char) → List Char → R) (p : List Char)
    (w : World K V M R) (hk : w.kernel.2 < w.now) (hc : w.code.2 < w.now) (hm : (w.machine p).2 < w.now)
    (deps : List (List Char)) (name : List Char) :
    (predict cwd file ana (step cwd file ana w (.predict p deps name)) p deps name).2 = false := by
  by_cases hs : (predict cwd file ana w p deps name).2 = true
  · unfold predict
    simp [step, fresh, hs, hk, hc, hm]
  · simp only [Bool.not_eq_true] at hs
    have hd : (step cwd file ana w (.predict p deps name)).disk = w.disk := by
      funext q
      simp [step, hs]
    unfold predict at hs ⊢
    simp only at hs ⊢
    rw [hd]
    cases hl : w.disk (location cwd file none deps name) with
    | none => rw [hl] at hs; simp at hs
    | some x =>
      obtain ⟨r, t⟩ := x
      rw [hl] at hs
      simp only at hs ⊢
      by_cases hf : fresh w p t = true
      · have : fresh (step cwd file ana w (.predict p deps name)) p t = true := hf
        rw [if_pos this]
      · rw [if_neg hf] at hs; cases hs

/-- C87, negation: results are not kept apart by machine. After a prediction for one machine, that for another machine file
(which is older) is the same, whatever the machines are. -/
theorem C87_negation (cwd file : List Char) (ana : K → V → M → List (List Char) → List Char → R) (p q : List Char)
    (w : World K V M R) (hw : Start w) (deps : List (List Char)) (name : List Char) :
    (predict cwd file ana (run cwd file ana w [.predict p deps name]) q deps name).1 =
      ana w.kernel.1 w.code.1 (w.machine p).1 deps name := by
  obtain ⟨h1, h2, h3, h4⟩ := hw
  have hp : predict cwd file ana w p deps name = (ana w.kernel.1 w.code.1 (w.machine p).1 deps name, true) := by
    unfold predict
    simp [h1]
  unfold predict
  simp [run, step, hp, fresh, h2, h3, h4]

/-- C87, an exact description: after a prediction for another machine the prediction is right just if that for the other machine
happens to be the same. -/
theorem C87_other_machine_iff (cwd file : List Char) (ana : K → V → M → List (List Char) → List Char → R) (p q : List Char)
    (w : World K V M R) (hw : Start w) (deps : List (List Char)) (name : List Char) :
    let w' := run cwd file ana w [.predict p deps name]
    (predict cwd file ana w' q deps name).1 = ana w'.kernel.1 w'.code.1 (w'.machine q).1 deps name ↔
      ana w.kernel.1 w.code.1 (w.machine p).1 deps name = ana w.kernel.1 w.code.1 (w.machine q).1 deps name := by
  have hk : ∀ e : List Char × List (List Char) × List Char, (step cwd file ana w (.predict e.1 e.2.1 e.2.2)).kernel = w.kernel ∧
      (step cwd file ana w (.predict e.1 e.2.1 e.2.2)).code = w.code ∧
      (step cwd file ana w (.predict e.1 e.2.1 e.2.2)).machine = w.machine := by
    intro e
    simp [step]
  obtain ⟨a, b, c⟩ := hk (p, deps, name)
  intro w'
  have hr : w' = step cwd file ana w (.predict p deps name) := rfl
  rw [C87_negation cwd file ana p q w hw deps name, hr, a, b, c]

/-- Two machines with caches of 32 and 512 kB, the prediction is the size. -/
def exampleWorld : World PUnit PUnit Nat Nat :=
  ⟨10, ((), 1), ((), 0), fun p => if p = "small.yml".toList then (32, 2) else (512, 3), fun _ => none⟩

example : Start exampleWorld := by
  refine ⟨fun _ => rfl, by decide, by decide, fun p => ?_⟩
  simp only [exampleWorld]
  split <;> decide
example : ProperNames ["1".toList] "LC_analysis.pickle.lzma".toList := by
  unfold ProperNames Proper
  decide +kernel
/-- The prediction for the large machine is that of the small one. -/
example : (predict "/".toList "k.c".toList (fun _ _ m _ _ => m) (run "/".toList "k.c".toList (fun _ _ m _ _ => m) exampleWorld
    [.predict "small.yml".toList ["1".toList] "LC".toList]) "large.yml".toList ["1".toList] "LC".toList).1 = 32 := by
  rw [C87_negation _ _ _ _ _ _ ?_]
  · decide +kernel
  · refine ⟨fun _ => rfl, by decide, by decide, fun p => ?_⟩
    simp only [exampleWorld]
    split <;> decide

end Verif.PredCache
