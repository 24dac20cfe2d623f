import Verif.Lemmas.MergeFiles

/-!
C154: merging files of results.
-/

namespace Verif.Cli.MergeFiles

open Verif.Cli

variable {C K V : Type} [DecidableEq K]

/-- The claim of C154: files that contain dictionaries, none of which has a value where another has a dictionary, are merged: at the end the
destination can be read, each value of a file is in it unless a later file has something at the same place, it has no other values, and no
other file was changed; whenever the program is stopped, all files can still be read as before or as after the merge. -/
def C154Claim (e : Env C K V) : Prop :=
  ∀ (fs : Files C) (dest : String) (sources : List String) (d : Forest K V) (us : List (Forest K V)),
    Reads e fs (dest :: sources) (d :: us) → (d :: us).Pairwise (fun f u => ¬ Conflict f u) →
    ∃ r states, main e fs dest sources = (states, .ok ()) ∧
      (∃ fs' rest c, states = fs' :: rest ∧ fs' dest = some c ∧ e.load c = .ok (.node r) ∧ ∀ q, q ≠ dest → fs' q = fs q) ∧
      (∀ p v, LeafAt d p v → (∀ u ∈ us, ¬ Touches u p) → LeafAt r p v) ∧
      (∀ before u after, us = before ++ u :: after → ∀ p v, LeafAt u p v → (∀ w ∈ after, ¬ Touches w p) → LeafAt r p v) ∧
      (∀ p v, LeafAt r p v → LeafAt d p v ∨ ∃ u ∈ us, LeafAt u p v) ∧
      ∀ s ∈ states, s dest = fs dest ∨ ∃ c, s dest = some c ∧ e.load c = .ok (.node r)

/-- C154, partial: with Python before 3.10, and unless the program is stopped. Missing: other versions (`C154_negation_version`) and programs that
are stopped while they write (`C154_negation_stopped`). -/
theorem C154_merged_partial (e : Env C K V) (hm : e.minor < 10) (hrt : ∀ f, e.load (e.dump f) = .ok (.node f))
    (hw : ∀ c f, e.load c = .ok (.node f) → f.Wf) (fs : Files C) (dest : String) (sources : List String) (d : Forest K V)
    (us : List (Forest K V)) (hr : Reads e fs (dest :: sources) (d :: us)) (hp : (d :: us).Pairwise fun f u => ¬ Conflict f u) :
    ∃ r states, main e fs dest sources = (states, .ok ()) ∧
      (∃ fs' rest c, states = fs' :: rest ∧ fs' dest = some c ∧ e.load c = .ok (.node r) ∧ ∀ q, q ≠ dest → fs' q = fs q) ∧
      (∀ p v, LeafAt d p v → (∀ u ∈ us, ¬ Touches u p) → LeafAt r p v) ∧
      (∀ before u after, us = before ++ u :: after → ∀ p v, LeafAt u p v → (∀ w ∈ after, ¬ Touches w p) → LeafAt r p v) ∧
      (∀ p v, LeafAt r p v → LeafAt d p v ∨ ∃ u ∈ us, LeafAt u p v) := by
  have hwu : ∀ ss vs, Reads e fs ss vs → (∀ u ∈ vs, u.Wf) ∧ ∀ p ∈ ss, (fs p).isSome := by
    intro ss vs h
    induction h with
    | nil => simp
    | cons h _ ih =>
      obtain ⟨c, h1, h2⟩ := h
      refine ⟨?_, ?_⟩
      · intro u hu
        rcases List.mem_cons.1 hu with rfl | hu
        · exact hw c _ h2
        · exact ih.1 u hu
      · intro p hp
        rcases List.mem_cons.1 hp with rfl | hp
        · rw [h1]; rfl
        · exact ih.2 p hp
  have hopen := openAll_ok fs _ (hwu _ _ hr).2
  have hr' := hr
  unfold Reads at hr'
  rw [List.forall₂_cons] at hr'
  obtain ⟨⟨c, hc, hl⟩, hrs⟩ := hr'
  rw [List.pairwise_cons] at hp
  have hws := (hwu _ _ hrs).1
  obtain ⟨r, hmr⟩ := mergeAll_succeeds e fs hm d sources us hrs hws [d] (fun p v h => ⟨d, by simp, h⟩) (by simpa using hp.1) hp.2
  obtain ⟨vs, h1, h2⟩ := mergeAll_ok e fs d r sources hmr
  have huv : vs = us := by
    clear h2 hmr hws hp hr hopen
    induction h1 generalizing us with
    | nil => cases hrs; rfl
    | cons ha _ ih =>
      cases hrs with
      | cons hb hrs =>
        obtain ⟨c1, a1, a2⟩ := ha
        obtain ⟨c2, b1, b2⟩ := hb
        rw [a1] at b1
        cases b1
        rw [a2] at b2
        cases b2
        rw [ih _ hrs]
  subst huv
  obtain ⟨m1, m2, m3⟩ := merged_new d r vs hws h2
  refine ⟨r, [put fs dest (e.dump r), put fs dest e.empty, fs], by simp only [main, hopen, loadMapping_of e fs dest d c hc hl hm, hmr], ?_, m1, m2, m3⟩
  exact ⟨_, _, e.dump r, rfl, by simp [put], hrt r, fun q hq => by simp [put, hq]⟩

/-- C154: whatever the files contain, a run that ends in an error changes no file at any time, and other runs change the destination only. -/
theorem C154_failed (e : Env C K V) (fs : Files C) (dest : String) (sources : List String) :
    (∀ m, (main e fs dest sources).2 = .error m → ∀ s ∈ (main e fs dest sources).1, s = fs) ∧
      ∀ s ∈ (main e fs dest sources).1, ∀ q, q ≠ dest → s q = fs q := by
  unfold main
  split
  · simp
  · split
    · simp
    · split
      · simp
      · refine ⟨by simp, ?_⟩
        intro s hs q hq
        simp only [List.mem_cons, List.not_mem_nil, or_false] at hs
        rcases hs with rfl | rfl | rfl
        · simp [put, hq]
        · simp [put, hq]
        · rfl

/-- C154: files that are missing, unreadable or no dictionaries are rejected. -/
theorem C154_rejected (e : Env C K V) (fs : Files C) (dest : String) (sources : List String) (p : String) (hp : p ∈ dest :: sources)
    (hbad : ∀ c, fs p = some c → ∀ f, e.load c ≠ .ok (.node f)) : ∃ m, (main e fs dest sources).2 = .error m := by
  have hl : ∀ f, loadMapping e fs p ≠ .ok f := by
    intro f h
    obtain ⟨c, h1, h2, -⟩ := loadMapping_ok e fs p f h
    exact hbad c h1 f h2
  unfold main
  split
  · exact ⟨_, rfl⟩
  · split
    · exact ⟨_, rfl⟩
    · rename_i d hd
      rcases List.mem_cons.1 hp with rfl | hp
      · exact absurd hd (hl d)
      · split
        · exact ⟨_, rfl⟩
        · rename_i r hr
          obtain ⟨us, h1, -⟩ := mergeAll_ok e fs d r sources hr
          obtain ⟨c, f, h2, h3⟩ := reads_mem e fs sources us h1 p hp
          exact absurd h3 (hbad c h2 f)

/-- C154 does not hold: since Python 3.10, which the package claims to support, every run ends in an error. -/
theorem C154_negation_version (e : Env C K V) (hm : 10 ≤ e.minor) (fs : Files C) (dest : String) (sources : List String) :
    ∃ m, main e fs dest sources = ([fs], .error m) := by
  have h : ∀ f, loadMapping e fs dest ≠ .ok f := by
    intro f h
    obtain ⟨-, -, -, h3⟩ := loadMapping_ok e fs dest f h
    omega
  unfold main
  split
  · exact ⟨_, rfl⟩
  · split
    · exact ⟨_, rfl⟩
    · rename_i d hd
      exact absurd hd (h d)

/-- C35 does not hold since Python 3.10: merging anything ends in an error. Before, the theorems about `update` (`Props/Merge.lean`) apply. -/
theorem C35_negation_version (minor : Nat) (hm : 10 ≤ minor) (d u : Forest K V) :
    (∃ m, updateIn minor d u = .error m) ↔ ∃ k t, u.get k = some t := by
  unfold updateIn
  rw [if_pos hm]
  cases u with
  | nil => simp [Forest.isNil, Forest.get]
  | cons k t rest => exact ⟨fun _ => ⟨k, t, by simp [Forest.get]⟩, fun _ => ⟨"AttributeError", by simp [Forest.isNil]⟩⟩

/-- C35, partial: before Python 3.10 the entry point is `update`. -/
theorem C35_version_partial (minor : Nat) (hm : minor < 10) (d u r : Forest K V) (hu : u.Wf) (h : updateIn minor d u = .ok r) (p : List K) (v : V) :
    (LeafAt u p v → LeafAt r p v) ∧ (LeafAt d p v → ¬ Touches u p → LeafAt r p v) ∧ (LeafAt r p v → LeafAt u p v ∨ LeafAt d p v) := by
  rw [updateIn, if_neg (by omega)] at h
  exact ⟨C35_new_leaves d u r hu h p v, C35_old_leaves d u r hu h p v, C35_nothing_else d u r hu h p v⟩

/-- Contents are dictionaries or something that cannot be read. -/
def env (minor : Nat) : Env (Option (Forest Nat Nat)) Nat Nat where
  minor := minor
  empty := none
  load := fun c => match c with | some f => .ok (.node f) | none => .error "EOFError"
  dump := some

def first : Forest Nat Nat := .cons 1 (.node (.cons 2 (.leaf 10) (.cons 3 (.leaf 11) .nil))) .nil
def second : Forest Nat Nat := .cons 1 (.node (.cons 3 (.leaf 21) .nil)) (.cons 4 (.leaf 12) .nil)

def files : Files (Option (Forest Nat Nat)) := fun p => if p = "a" then some (some first) else if p = "b" then some (some second) else none

theorem files_read (minor : Nat) : Reads (env minor) files ["a", "b"] [first, second] :=
  .cons ⟨some first, rfl, rfl⟩ (.cons ⟨some second, rfl, rfl⟩ .nil)

theorem no_conflict : ([first, second] : List (Forest Nat Nat)).Pairwise fun f u => ¬ Conflict f u := by
  have h : ¬ Conflict first second := by
    intro h
    have hw : second.Wf := by simp [second, Forest.Wf, Tree.Wf, Forest.get]
    obtain ⟨m, hm⟩ := (C35_rejected_iff first second hw).2 h
    simp [first, second, update, Forest.get, Forest.set] at hm
  simp [h]

example : (main (env 9) files "a" ["b"]).2 = .ok () := by
  simp [main, openAll, files, loadMapping, env, mergeAll, first, second, updateIn, update, Forest.get, Forest.set]

example : ∀ v, LeafAt first [1, 2] v ↔ v = 10 := by
  intro v
  simp [LeafAt, first, Forest.at, Forest.get, eq_comm]

example : ∃ m, (main (env 9) files "a" ["b", "c"]).2 = .error m :=
  C154_rejected (env 9) files "a" ["b", "c"] "c" (by simp) (by intro c hc; simp [files] at hc)

/-- C154 does not hold: a program that is stopped while it writes leaves a destination that cannot be read. -/
theorem C154_negation_stopped : ∃ s ∈ (main (env 9) files "a" ["b"]).1, ∃ c, s "a" = some c ∧ ∀ t, (env 9).load c ≠ .ok t := by
  refine ⟨put files "a" none, ?_, none, by simp [put], by simp [env]⟩
  simp [main, openAll, files, loadMapping, env, mergeAll, first, second, updateIn, update, Forest.get, Forest.set]

theorem C154_negation : ¬ C154Claim (env 9) ∧ ¬ C154Claim (env 10) := by
  refine ⟨?_, ?_⟩
  · intro h
    obtain ⟨r, states, h1, -, -, -, -, h2⟩ := h files "a" ["b"] first [second] (files_read 9) no_conflict
    obtain ⟨s, hs, c, h3, h4⟩ := C154_negation_stopped
    rw [h1] at hs
    rcases h2 s hs with h5 | ⟨c', h5, h6⟩
    · rw [h3] at h5
      simp only [files, if_true, Option.some.injEq] at h5
      exact h4 (.node first) (by rw [h5]; rfl)
    · rw [h3] at h5
      cases h5
      exact h4 _ h6
  · intro h
    obtain ⟨r, states, h1, -⟩ := h files "a" ["b"] first [second] (files_read 10) no_conflict
    obtain ⟨m, h2⟩ := C154_negation_version (env 10) (by simp [env]) files "a" ["b"]
    rw [h1] at h2
    simp at h2

end Verif.Cli.MergeFiles
