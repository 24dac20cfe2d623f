import Verif.Model.IncoreCache
import Verif.Lemmas.Layout

/-!
Property C17 (`kerncraft/kernel.py:1682-1752`): the in-core analysis honours its arguments.
Specification: `direct`, the analysis without any cache.
-/

namespace Verif.IncoreCache
open Verif.Layout (lookup_mem)

/-- What analysing with exactly these arguments gives. -/
def direct {M R : Type} (mark : Args → Option (M × Int)) (ana : String → M → R) (args : Args)
    (model : String) : Except String (R × Int) :=
  match mark args with
  | none => .error "RuntimeError"
  | some (asm, inc) => .ok (ana model asm, inc)

/-- C17 full claim. -/
def C17_claim : Prop :=
  ∀ (M R : Type) (mark : Args → Option (M × Int)) (ana : String → M → R) (h : List Ev) (args : Args)
    (model : String), (incoreAnalysis mark ana (runEvs mark ana h) args model).1 =
      direct mark ana args model

/-- C17 is false: analysing block "0" and then block "1" returns the analysis of block "0" twice. -/
theorem C17_negation : ¬ C17_claim := by
  intro h
  have := h String String (fun a => some (a.block, 32)) (fun m s => m ++ s)
    [.call ⟨"0", "auto"⟩ "OSACA"] ⟨"1", "auto"⟩ "OSACA"
  revert this
  decide

/-- Since the last change of the inputs, every analysis with in-core model `model` was made with
arguments `args`. -/
def SameArgs (args : Args) (model : String) : List Ev → Prop
  | [] => True
  | .touch :: h => SameArgs args model h
  | .call a m :: h =>
    ((m = model → a = args) ∨ ∃ pre post, h = pre ++ .touch :: post) ∧ SameArgs args model h

/-- Cached marked files belong to their arguments; cached analyses were made by some call. -/
structure Inv {M R : Type} (mark : Args → Option (M × Int)) (ana : String → M → R)
    (h : List Ev) (d : Disk M R) : Prop where
  marked : ∀ a x, (a, x) ∈ d.marked → mark a = some x
  analysis : ∀ m r, (m, r) ∈ d.analysis → ∃ a pre post, h = pre ++ .call a m :: post ∧
    .touch ∉ post ∧ direct mark ana a m = .ok r

theorem inv_run {M R : Type} (mark : Args → Option (M × Int)) (ana : String → M → R) (h : List Ev) :
    Inv mark ana h (runEvs mark ana h) := by
  induction h using List.reverseRecOn with
  | nil => exact ⟨by simp [runEvs], by simp [runEvs]⟩
  | append_singleton h e ih =>
    have hrun : runEvs mark ana (h ++ [e]) = step mark ana (runEvs mark ana h) e := by
      simp [runEvs]
    rw [hrun]
    have keep : e ≠ .touch → ∀ m r, (m, r) ∈ (runEvs mark ana h).analysis →
        ∃ a pre post, h ++ [e] = pre ++ .call a m :: post ∧ .touch ∉ post ∧
          direct mark ana a m = .ok r := by
      intro he m r hm
      obtain ⟨a, pre, post, h1, h2, h3⟩ := ih.analysis m r hm
      exact ⟨a, pre, post ++ [e], by rw [h1]; simp, by simp [h2, Ne.symm he], h3⟩
    cases e with
    | touch => exact ⟨by simp [step], by simp [step]⟩
    | call args model =>
      have new : ∀ (asm : M) (inc : Int), mark args = some (asm, inc) →
          ∃ a pre post, h ++ [Ev.call args model] = pre ++ .call a model :: post ∧ .touch ∉ post ∧
            direct mark ana a model = .ok (ana model asm, inc) :=
        fun asm inc hmk => ⟨args, h, [], rfl, by simp, by simp [direct, hmk]⟩
      simp only [step, incoreAnalysis]
      split
      · exact ⟨ih.marked, keep (by simp)⟩
      · split
        · rename_i asm inc hl
          have hmk := ih.marked _ _ (lookup_mem _ _ _ hl)
          refine ⟨ih.marked, ?_⟩
          intro m r hm
          rcases List.mem_cons.1 hm with hm | hm
          · simp only [Prod.mk.injEq] at hm
            obtain ⟨rfl, rfl⟩ := hm
            exact new asm inc hmk
          · exact keep (by simp) m r hm
        · split
          · exact ⟨ih.marked, keep (by simp)⟩
          · rename_i asm inc hmk
            refine ⟨?_, ?_⟩
            · intro a x hm
              rcases List.mem_cons.1 hm with hm | hm
              · simp only [Prod.mk.injEq] at hm
                obtain ⟨rfl, rfl⟩ := hm
                exact hmk
              · exact ih.marked a x hm
            · intro m r hm
              rcases List.mem_cons.1 hm with hm | hm
              · simp only [Prod.mk.injEq] at hm
                obtain ⟨rfl, rfl⟩ := hm
                exact new asm inc hmk
              · exact keep (by simp) m r hm

theorem sameArgs_call (args a : Args) (model : String) (pre post : List Ev)
    (hs : SameArgs args model (pre ++ .call a model :: post)) (ht : .touch ∉ post) : a = args := by
  induction pre with
  | nil =>
    rcases hs.1 with h | ⟨p, q, h⟩
    · exact h rfl
    · exact absurd (by rw [h]; simp) ht
  | cons e pre ih =>
    cases e with
    | touch => exact ih hs
    | call b m => exact ih hs.2

/-- C17 partial: the analysis is right if, since the inputs last changed, the same in-core model was
always asked with the same arguments. Missing: calls with other arguments, for which it is false. -/
theorem C17_same_arguments_partial {M R : Type} (mark : Args → Option (M × Int))
    (ana : String → M → R) (h : List Ev) (args : Args) (model : String)
    (hs : SameArgs args model h) :
    (incoreAnalysis mark ana (runEvs mark ana h) args model).1 = direct mark ana args model := by
  have hi := inv_run mark ana h
  unfold incoreAnalysis
  split
  · rename_i r hr
    obtain ⟨a, pre, post, h1, h2, h3⟩ := hi.analysis _ _ (lookup_mem _ _ _ hr)
    rw [h1] at hs
    rw [← sameArgs_call args a model pre post hs h2, h3]
  · split
    · rename_i asm inc hl
      have := hi.marked _ _ (lookup_mem _ _ _ hl)
      simp [direct, this]
    · split
      · rename_i hm; simp [direct, hm]
      · rename_i asm inc hm; simp [direct, hm]

/-- C17 partial: whatever is returned was at least computed for this in-core model by an earlier call
made since the inputs last changed, or by this call. -/
theorem C17_result_of_some_call_partial {M R : Type} (mark : Args → Option (M × Int))
    (ana : String → M → R) (h : List Ev) (args : Args) (model : String) (r : R × Int)
    (hr : (incoreAnalysis mark ana (runEvs mark ana h) args model).1 = .ok r) :
    ∃ a pre post, h ++ [.call args model] = pre ++ Ev.call a model :: post ∧ .touch ∉ post ∧
      direct mark ana a model = .ok r := by
  have hi := inv_run mark ana h
  unfold incoreAnalysis at hr
  split at hr
  · rename_i r' hl
    simp at hr
    subst hr
    obtain ⟨a, pre, post, h1, h2, h3⟩ := hi.analysis _ _ (lookup_mem _ _ _ hl)
    exact ⟨a, pre, post ++ [.call args model], by rw [h1]; simp, by simp [h2], h3⟩
  · refine ⟨args, h, [], rfl, by simp, ?_⟩
    split at hr
    · rename_i asm inc hl
      have := hi.marked _ _ (lookup_mem _ _ _ hl)
      simp at hr
      simp [direct, this, hr]
    · split at hr
      · simp at hr
      · rename_i asm inc hm
        simp at hr
        simp [direct, hm, hr]

/-- The arguments that decide about the results of `model` after a history: those of the first call for it since the inputs last changed that finds a block. -/
def deciding {M : Type} (mark : Args → Option (M × Int)) (model : String) (h : List Ev) : Option Args :=
  ((h.reverse.takeWhile (· ≠ .touch)).reverse.filterMap fun
    | .call a m => if m = model ∧ (mark a).isSome then some a else none
    | .touch => none).head?

theorem deciding_touch {M : Type} (mark : Args → Option (M × Int)) (model : String) (h : List Ev) : deciding mark model (h ++ [.touch]) = none := by
  simp [deciding]

theorem deciding_call {M : Type} (mark : Args → Option (M × Int)) (model : String) (h : List Ev) (a : Args) (m : String) :
    deciding mark model (h ++ [.call a m]) =
      (deciding mark model h).or (if m = model ∧ (mark a).isSome then some a else none) := by
  simp only [deciding, List.reverse_append, List.reverse_cons, List.reverse_nil, List.nil_append, List.cons_append]
  rw [List.takeWhile_cons_of_pos (by simp)]
  simp only [List.reverse_cons, List.filterMap_append, List.head?_append]
  congr 1
  by_cases hc : m = model ∧ (mark a).isSome = true
  · simp [hc]
  · simp [hc]

theorem analysis_deciding {M R : Type} (mark : Args → Option (M × Int)) (ana : String → M → R) (h : List Ev) : ∀ model,
    (runEvs mark ana h).analysis.lookup model =
      (deciding mark model h).bind fun a => (mark a).map fun x => (ana model x.1, x.2) := by
  induction h using List.reverseRecOn with
  | nil => intro model; rfl
  | append_singleton h e ih =>
    intro model
    have hr : runEvs mark ana (h ++ [e]) = step mark ana (runEvs mark ana h) e := by simp [runEvs]
    have hi := inv_run mark ana h
    rw [hr]
    cases e with
    | touch => simp [step, deciding_touch]
    | call a m =>
      have hih := ih model
      have him := ih m
      rw [deciding_call]
      have key : ∀ (asm : M) (inc : Int), mark a = some (asm, inc) → (runEvs mark ana h).analysis.lookup m = none →
          ((m, (ana m asm, inc)) :: (runEvs mark ana h).analysis).lookup model =
            ((deciding mark model h).or (if m = model ∧ (mark a).isSome then some a else none)).bind
              fun a => (mark a).map fun x => (ana model x.1, x.2) := by
        intro asm inc hm hn
        by_cases hmm : m = model
        · subst hmm
          rw [List.lookup_cons_self]
          rw [hn] at him
          cases hd : deciding mark m h with
          | none => simp [hm]
          | some b =>
            exfalso
            have hb : (mark b).isSome := by
              simp only [deciding] at hd
              have := List.mem_of_mem_head? hd
              simp only [List.mem_filterMap] at this
              obtain ⟨ev, -, hev⟩ := this
              cases ev with
              | touch => simp at hev
              | call c k =>
                simp only [Option.ite_none_right_eq_some, Option.some.injEq] at hev
                obtain ⟨⟨-, h2⟩, rfl⟩ := hev
                exact h2
            rw [hd] at him
            obtain ⟨x, hx⟩ := Option.isSome_iff_exists.mp hb
            simp [hx] at him
        · have : (model == m) = false := by simpa using fun h => hmm h.symm
          rw [List.lookup_cons, this]
          simp [hmm, hih]
      simp only [step]
      unfold incoreAnalysis
      split
      · rename_i r hl
        rw [hih]
        by_cases hmm : m = model
        · subst hmm
          rw [hl] at him
          cases hd : deciding mark m h with
          | none => rw [hd] at him; simp at him
          | some b => simp
        · simp [hmm]
      · rename_i hn
        split
        · rename_i asm inc hl
          exact key asm inc (hi.marked _ _ (lookup_mem _ _ _ hl)) hn
        · split
          · rename_i hm
            simp only [hm]
            rw [hih]
            simp
          · rename_i asm inc hm
            exact key asm inc hm hn

/-- C17: the result is always the one for the deciding arguments, or for those of the call if none were decided before. -/
theorem C17_result {M R : Type} (mark : Args → Option (M × Int)) (ana : String → M → R) (h : List Ev) (args : Args) (model : String) :
    (incoreAnalysis mark ana (runEvs mark ana h) args model).1 = direct mark ana ((deciding mark model h).getD args) model := by
  have hi := inv_run mark ana h
  have ha := analysis_deciding mark ana h model
  unfold incoreAnalysis
  split
  · rename_i r hr
    rw [hr] at ha
    cases hd : deciding mark model h with
    | none => rw [hd] at ha; simp at ha
    | some b =>
      rw [hd] at ha
      cases hm : mark b with
      | none => simp [hm] at ha
      | some x => simp [hm] at ha; simp [direct, hm, ha]
  · rename_i hn
    have hd : deciding mark model h = none := by
      cases hd : deciding mark model h with
      | none => rfl
      | some b =>
        rw [hn, hd] at ha
        have hb : mark b = none := by simpa using ha.symm
        simp only [deciding] at hd
        have := List.mem_of_mem_head? hd
        simp only [List.mem_filterMap] at this
        obtain ⟨ev, -, hev⟩ := this
        cases ev with
        | touch => simp at hev
        | call c k =>
          simp only [Option.ite_none_right_eq_some, Option.some.injEq] at hev
          obtain ⟨⟨-, h2⟩, rfl⟩ := hev
          simp [hb] at h2
    rw [hd]
    split
    · rename_i asm inc hl
      simp [direct, hi.marked _ _ (lookup_mem _ _ _ hl)]
    · split
      · rename_i hm; simp [direct, hm]
      · rename_i asm inc hm; simp [direct, hm]

/-- C17: a call gives the result of its own arguments exactly if the deciding ones have the same result, or there are none. -/
theorem C17_right_iff {M R : Type} (mark : Args → Option (M × Int)) (ana : String → M → R) (h : List Ev) (args : Args) (model : String) :
    (incoreAnalysis mark ana (runEvs mark ana h) args model).1 = direct mark ana args model ↔
      ∀ a, deciding mark model h = some a → direct mark ana a model = direct mark ana args model := by
  rw [C17_result]
  cases deciding mark model h with
  | none => simp
  | some a => simp

example : deciding (fun a => if a.block = "7" then none else some (a.block, 32)) "OSACA"
    [.call ⟨"0", "auto"⟩ "OSACA", .touch, .call ⟨"7", "auto"⟩ "OSACA", .call ⟨"0", "8"⟩ "IACA", .call ⟨"1", "auto"⟩ "OSACA", .call ⟨"2", "auto"⟩ "OSACA"] =
      some ⟨"1", "auto"⟩ := by decide

example : SameArgs ⟨"1", "auto"⟩ "OSACA"
    [.call ⟨"0", "auto"⟩ "OSACA", .touch, .call ⟨"1", "auto"⟩ "OSACA", .call ⟨"0", "8"⟩ "IACA"] :=
  ⟨Or.inr ⟨[], _, rfl⟩, Or.inl (fun _ => rfl), Or.inl (fun h => absurd h (by decide)), trivial⟩

end Verif.IncoreCache
