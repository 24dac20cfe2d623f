import Verif.Spec.CKernel
import Mathlib.Tactic.Ring
import Mathlib.Data.Char

/-!
Helper lemmas for the kernel parser.
-/

namespace Verif.Parse

open Verif.Text Verif.CSem

/-- All assignments in order. -/
def pAll : List (String × Expr × Expr) → Body → Except Err Body
  | [], b => .ok b
  | (op, lv, rv) :: rest, b => do
    let b ← pAssignment op lv rv b
    pAll rest b

theorem pAll_append (l1 l2 : List (String × Expr × Expr)) (b : Body) :
    pAll (l1 ++ l2) b = (pAll l1 b).bind (pAll l2) := by
  induction l1 generalizing b with
  | nil => rfl
  | cons a l1 ih =>
    obtain ⟨op, lv, rv⟩ := a
    simp only [List.cons_append, pAll]
    cases pAssignment op lv rv b with
    | error e => rfl
    | ok b' => exact ih b'

theorem bind_ok {α β : Type} {x : Except Err α} {f : α → Except Err β} {y : β} (h : x.bind f = .ok y) :
    ∃ a, x = .ok a ∧ f a = .ok y := by
  cases x with
  | error e => exact absurd h (by simp [Except.bind])
  | ok a => exact ⟨a, rfl, h⟩

theorem pLeaf_assigns (items : List Stmt) (b b' : Body) (h : pLeaf items b = .ok b') : pAll (assignsList items) b = .ok b' := by
  induction items generalizing b with
  | nil => simpa [pLeaf, assignsList, pAll] using h
  | cons s rest ih =>
    cases s with
    | pragma =>
      simp only [pLeaf] at h
      simpa [assignsList, assigns] using ih b h
    | assign op lv rv =>
      simp only [pLeaf] at h
      obtain ⟨b1, h1, h2⟩ := bind_ok h
      have := ih b1 h2
      simp only [assignsList, assigns, List.singleton_append, pAll, h1]
      exact this
    | loop h' body => simp [pLeaf] at h
    | compound items => simp [pLeaf] at h
    | decl n t => simp [pLeaf] at h
    | call n => simp [pLeaf] at h
    | other => simp [pLeaf] at h

theorem enter_body {h : Header} {body : Stmt} {s s' : St} (he : enter h body s = .ok s') :
    ∃ e, pHeader h = .ok e ∧ s' = { s with loops := s.loops ++ [e] } ∧ isBody body = true := by
  unfold enter at he
  split at he
  · exact absurd he (by simp)
  · rename_i hb
    obtain ⟨e, h1, h2⟩ := bind_ok he
    simp only [Except.ok.injEq] at h2
    exact ⟨e, h1, h2.symm, by simpa using hb⟩

mutual

theorem pBody_assigns (st : Stmt) (s s' : St) (h : pBody st s = .ok s') : pAll (assigns st) s.body = .ok s'.body := by
  match st with
  | .loop hd body =>
    unfold pBody at h
    split at h
    · exact absurd h (by simp)
    · rename_i s1 he
      obtain ⟨e, _, rfl, _⟩ := enter_body he
      have := pBody_assigns body _ s' h
      unfold assigns
      exact this
  | .assign op lv rv =>
    unfold pBody at h
    obtain ⟨b, h1, h2⟩ := bind_ok h
    simp only [Except.ok.injEq] at h2
    subst h2
    simp only [assigns, pAll, h1]
    rfl
  | .compound items =>
    unfold pBody at h
    unfold assigns
    split at h
    · rename_i r hr
      subst h
      exact pNested_assigns items s s' hr
    · split at h
      · exact absurd h (by simp)
      · obtain ⟨b, h1, h2⟩ := bind_ok h
        simp only [Except.ok.injEq] at h2
        subst h2
        exact pLeaf_assigns items s.body b h1
  | .pragma => simp [pBody] at h
  | .decl n t => simp [pBody] at h
  | .call n => simp [pBody] at h
  | .other => simp [pBody] at h

theorem pNested_assigns (items : List Stmt) (s s' : St) (h : pNested items s = some (.ok s')) :
    pAll (assignsList items) s.body = .ok s'.body := by
  match items with
  | [] => simp [pNested] at h
  | .pragma :: rest =>
    simp only [pNested] at h
    simpa [assignsList, assigns] using pNested_assigns rest s s' h
  | .loop hd body :: rest =>
    match rest with
    | [] =>
      simp only [pNested, Option.some.injEq] at h
      split at h
      · exact absurd h (by simp)
      · rename_i s1 he
        obtain ⟨e, _, rfl, _⟩ := enter_body he
        have := pBody_assigns body _ s' h
        simpa [assignsList, assigns] using this
    | _ :: _ => simp [pNested] at h
  | .assign _ _ _ :: rest => simp [pNested] at h
  | .compound _ :: rest => simp [pNested] at h
  | .decl _ _ :: rest => simp [pNested] at h
  | .call _ :: rest => simp [pNested] at h
  | .other :: rest => simp [pNested] at h

end

end Verif.Parse
