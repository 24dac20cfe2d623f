import Verif.Model.Cli
import Mathlib.Tactic.Tauto
import Mathlib.Logic.Basic
import Mathlib.Data.List.Basic

/-!
C42: the result file and crashes. C43: the result file and concurrent runs.
-/

namespace Verif.Cli

section
variable {S B : Type}

theorem foldl_no_move (ops : List (StoreOp B)) (h : ∀ o ∈ ops, o ≠ .move) (f : Files B) :
    (ops.foldl StoreOp.apply f).main = f.main := by
  induction ops generalizing f with
  | nil => rfl
  | cons o ops ih =>
    rw [List.foldl_cons, ih (fun o' ho' => h o' (by simp [ho']))]
    cases o with
    | openTmp => rfl
    | write b => rfl
    | move => exact absurd rfl (h _ (by simp))

theorem foldl_writes (c : List B) (m : Option (List B)) (t : List B) :
    (c.map StoreOp.write).foldl StoreOp.apply ⟨m, some t⟩ = ⟨m, some (t ++ c)⟩ := by
  induction c generalizing t with
  | nil => simp
  | cons b c ih => simp [StoreOp.apply, ih]

theorem foldl_store (dump : S → List B) (s : S) (f : Files B) :
    (storeOps dump s).foldl StoreOp.apply f = ⟨some (dump s), none⟩ := by
  simp [storeOps, List.foldl_append, StoreOp.apply, foldl_writes]

theorem storeOps_length (dump : S → List B) (s : S) : (storeOps dump s).length = (dump s).length + 2 := by
  simp [storeOps]

/-- Number of file operations for storing the given states. -/
def opCount (dump : S → List B) (ss : List S) : Nat := (ss.map fun s => (dump s).length + 2).sum

/-- C42: wherever the run is stopped, with `j` the number of completed stores, the result file holds exactly the
complete content of the `j`th store, or is as before the run if `j = 0`. -/
theorem C42_crash (dump : S → List B) (ss : List S) (k : Nat) (f : Files B) :
    ∃ j ≤ ss.length, (opCount dump (ss.take j) ≤ k) ∧ (j < ss.length → k < opCount dump (ss.take (j + 1))) ∧
      (j = 0 → (crashAfter dump ss k f).main = f.main) ∧
      (∀ i s, j = i + 1 → ss[i]? = some s → (crashAfter dump ss k f).main = some (dump s)) := by
  induction ss generalizing k f with
  | nil => exact ⟨0, by simp, by simp [opCount], by simp, by simp [crashAfter], by simp⟩
  | cons s ss ih =>
    by_cases hk : k < (dump s).length + 2
    · refine ⟨0, by simp, by simp [opCount], fun _ => by simpa [opCount] using hk, fun _ => ?_, by simp⟩
      unfold crashAfter
      rw [List.flatMap_cons, List.take_append_of_le_length (by rw [storeOps_length]; omega)]
      apply foldl_no_move
      intro o ho
      have : (storeOps dump s).take k = (.openTmp :: (dump s).map .write).take k := by
        rw [storeOps]
        apply List.take_append_of_le_length
        simp; omega
      rw [this] at ho
      have := List.mem_of_mem_take ho
      simp only [List.mem_cons, List.mem_map] at this
      rcases this with rfl | ⟨_, _, rfl⟩ <;> simp
    · obtain ⟨j, hj, h1, h2, h3, h4⟩ := ih (k - ((dump s).length + 2)) ⟨some (dump s), none⟩
      have hmain : crashAfter dump (s :: ss) k f =
          crashAfter dump ss (k - ((dump s).length + 2)) ⟨some (dump s), none⟩ := by
        unfold crashAfter
        rw [List.flatMap_cons, List.take_append, storeOps_length, List.foldl_append,
          List.take_of_length_le (by rw [storeOps_length]; omega), foldl_store]
      refine ⟨j + 1, by simp; omega, ?_, ?_, by simp, ?_⟩
      · simp only [opCount, List.take_succ_cons, List.map_cons, List.sum_cons] at h1 ⊢
        omega
      · intro h
        have := h2 (by simpa using h)
        simp only [opCount, List.take_succ_cons, List.map_cons, List.sum_cons] at this ⊢
        omega
      · intro i s' hi hs'
        rw [hmain]
        obtain rfl : j = i := by omega
        cases j with
        | zero =>
          simp only [List.getElem?_cons_zero, Option.some.injEq] at hs'
          subst hs'
          exact h3 rfl
        | succ j => exact h4 j s' rfl (by simpa using hs')

/-- Two states of two and one bytes: after 2 of 7 operations the old content is there, after 6 the first state. -/
example : (crashAfter id [[1, 2], [3]] 2 ⟨some [9], none⟩).main = some [9] ∧
    (crashAfter id [[1, 2], [3]] 6 ⟨some [9], none⟩).main = some [1, 2] ∧
    (crashAfter id [[1, 2], [3]] 7 ⟨some [9], none⟩).main = some [3] := by decide

end

/-! ### Restarted runs -/

section
variable {B K R : Type} [DecidableEq K]

/-- Lines 306-312: the storage a run starts with; an empty file gives an empty storage (`EOFError`). -/
def view (load : List B → Storage K R) : Option (List B) → Storage K R
  | none => fun _ => none
  | some [] => fun _ => none
  | some c => load c

/-- Line 407, several times. -/
def addAll (s : Storage K R) (adds : List (K × R)) : Storage K R :=
  adds.foldl (fun s kr k => if k = kr.1 then some kr.2 else s k) s

/-- The states a run stores: after each batch of results. -/
def statesOf (s : Storage K R) : List (List (K × R)) → List (Storage K R)
  | [] => []
  | b :: bs => addAll s b :: statesOf (addAll s b) bs

/-- One run over the batches that is stopped after `k` file operations. -/
def runOnce (dump : Storage K R → List B) (load : List B → Storage K R) (f : Files B)
    (run : List (List (K × R)) × Nat) : Files B :=
  crashAfter dump (statesOf (view load f.main) run.1) run.2 f

theorem addAll_not_mem (s : Storage K R) (adds : List (K × R)) (k : K) (h : ∀ r, (k, r) ∉ adds) :
    addAll s adds k = s k := by
  unfold addAll
  induction adds generalizing s with
  | nil => rfl
  | cons a adds ih =>
    rw [List.foldl_cons, ih _ (fun r hr => h r (by simp [hr]))]
    rw [if_neg]
    rintro rfl
    exact h a.2 (by simp)

theorem addAll_isSome (s : Storage K R) (adds : List (K × R)) (k : K)
    (h : (s k).isSome ∨ ∃ r, (k, r) ∈ adds) : (addAll s adds k).isSome := by
  unfold addAll
  induction adds generalizing s with
  | nil =>
    rcases h with h | ⟨r, h⟩
    · exact h
    · simp at h
  | cons a adds ih =>
    rw [List.foldl_cons]
    apply ih
    rcases h with h | ⟨r, h⟩
    · left
      show Option.isSome (if k = a.1 then some a.2 else s k) = true
      split
      · rfl
      · exact h
    · rcases List.mem_cons.mp h with h | h
      · left
        show Option.isSome (if k = a.1 then some a.2 else s k) = true
        rw [if_pos (by rw [← h])]
        rfl
      · exact Or.inr ⟨r, h⟩

theorem statesOf_get (s : Storage K R) (bs : List (List (K × R))) (i : Nat) (t : Storage K R)
    (h : (statesOf s bs)[i]? = some t) : t = addAll s (bs.take (i + 1)).flatten := by
  induction bs generalizing s i with
  | nil => simp [statesOf] at h
  | cons b bs ih =>
    cases i with
    | zero =>
      simp only [statesOf, List.getElem?_cons_zero, Option.some.injEq] at h
      rw [← h]
      simp
    | succ i =>
      simp only [statesOf, List.getElem?_cons_succ] at h
      rw [ih _ _ h]
      simp [addAll, List.foldl_append]

theorem statesOf_length (s : Storage K R) (bs : List (List (K × R))) :
    (statesOf s bs).length = bs.length := by
  induction bs generalizing s with
  | nil => rfl
  | cons b bs ih => simp [statesOf, ih]

/-- What the next run sees after a run was stopped: what was there before plus the results of the first batches. -/
theorem view_runOnce (dump : Storage K R → List B) (load : List B → Storage K R)
    (hload : ∀ s, load (dump s) = s) (hne : ∀ s, dump s ≠ []) (f : Files B)
    (run : List (List (K × R)) × Nat) :
    ∃ j ≤ run.1.length, view load (runOnce dump load f run).main =
      addAll (view load f.main) (run.1.take j).flatten := by
  obtain ⟨j, hj, _, _, h3, h4⟩ := C42_crash dump (statesOf (view load f.main) run.1) run.2 f
  rw [statesOf_length] at hj
  refine ⟨j, hj, ?_⟩
  unfold runOnce
  cases j with
  | zero => rw [h3 rfl]; simp [addAll]
  | succ i =>
    have hi : i < (statesOf (view load f.main) run.1).length := by rw [statesOf_length]; omega
    have hs := List.getElem?_eq_getElem hi
    rw [h4 i _ rfl hs]
    have := statesOf_get _ _ _ _ hs
    rw [← this]
    generalize (statesOf (view load f.main) run.1)[i] = t
    cases hd : dump t with
    | nil => exact absurd hd (hne t)
    | cons b bs => simp [view, ← hd, hload]

/-- C42: over any number of runs, each stopped at any operation and followed by the next one, no stored result is
lost, and results that no run computes anew are unchanged. -/
theorem C42_restarts (dump : Storage K R → List B) (load : List B → Storage K R)
    (hload : ∀ s, load (dump s) = s) (hne : ∀ s, dump s ≠ [])
    (runs : List (List (List (K × R)) × Nat)) (f : Files B) (k : K) :
    ((view load f.main k).isSome → (view load (runs.foldl (runOnce dump load) f).main k).isSome) ∧
    ((∀ run ∈ runs, ∀ b ∈ run.1, ∀ r, (k, r) ∉ b) →
      view load (runs.foldl (runOnce dump load) f).main k = view load f.main k) := by
  induction runs generalizing f with
  | nil => simp
  | cons run runs ih =>
    obtain ⟨j, _, hj⟩ := view_runOnce dump load hload hne f run
    rw [List.foldl_cons]
    obtain ⟨ih1, ih2⟩ := ih (runOnce dump load f run)
    constructor
    · intro h
      apply ih1
      rw [hj]
      exact addAll_isSome _ _ _ (Or.inl h)
    · intro h
      rw [ih2 (fun run' hr => h run' (by simp [hr])), hj]
      apply addAll_not_mem
      intro r hr
      obtain ⟨b, hb, hkb⟩ := List.mem_flatten.mp hr
      exact h run (by simp) b (List.mem_of_mem_take hb) r hkb

/-- C42: a run that is not stopped stores all its results. -/
theorem C42_complete (dump : Storage K R → List B) (load : List B → Storage K R)
    (hload : ∀ s, load (dump s) = s) (hne : ∀ s, dump s ≠ []) (f : Files B)
    (bs : List (List (K × R))) (n : Nat)
    (hn : opCount dump (statesOf (view load f.main) bs) ≤ n) :
    view load (runOnce dump load f (bs, n)).main = addAll (view load f.main) bs.flatten := by
  obtain ⟨j, hj, _, h2, h3, h4⟩ := C42_crash dump (statesOf (view load f.main) bs) n f
  rw [statesOf_length] at hj h2
  have hjl : j = bs.length := by
    by_contra hne'
    have hlt := h2 (by omega)
    have : opCount dump ((statesOf (view load f.main) bs).take (j + 1)) ≤
        opCount dump (statesOf (view load f.main) bs) := by
      unfold opCount
      conv_rhs => rw [← List.take_append_drop (j + 1) (statesOf (view load f.main) bs), List.map_append,
        List.sum_append]
      omega
    omega
  unfold runOnce
  cases j with
  | zero =>
    rw [h3 rfl]
    have : bs = [] := List.length_eq_zero_iff.mp hjl.symm
    simp [this, addAll]
  | succ i =>
    have hi : i < (statesOf (view load f.main) bs).length := by rw [statesOf_length]; omega
    have hs := List.getElem?_eq_getElem hi
    rw [h4 i _ rfl hs]
    have hst := statesOf_get _ _ _ _ hs
    rw [hjl, List.take_length] at hst
    rw [← hst]
    generalize (statesOf (view load f.main) bs)[i] = t
    cases hd : dump t with
    | nil => exact absurd hd (hne t)
    | cons b bs => simp [view, ← hd, hload]

/-- Storages over one key with results `true`/`false`, dumped as one byte. -/
example : ∃ (dump : Storage Unit Bool → List Nat) (load : List Nat → Storage Unit Bool),
    (∀ s, load (dump s) = s) ∧ (∀ s, dump s ≠ []) :=
  ⟨fun s => match s () with | none => [0] | some false => [1] | some true => [2],
   fun c _ => match c with | [1] => some false | [2] => some true | _ => none,
   fun s => by
    funext u
    cases u
    match h : s () with
    | none => simp [h]
    | some false => simp [h]
    | some true => simp [h],
   fun s => by
    match h : s () with
    | none => simp [h]
    | some false => simp [h]
    | some true => simp [h]⟩

end

/-! ### Concurrent runs -/

section
variable {K R : Type} [DecidableEq K]

/-- Run of an event. -/
def Event.run : Event K R → Nat
  | .load i => i
  | .add i _ _ => i
  | .store i => i

/-- Events of complete runs: each run loads once, first, and stores last. -/
def Complete (es : List (Event K R)) : Prop :=
  ∀ e ∈ es, ∃ mid, (es.filter fun e' => e'.run = e.run) = .load e.run :: mid ++ [.store e.run] ∧
    .load e.run ∉ mid

/-- Execution from a file. -/
def execute (file : Storage K R) (es : List (Event K R)) : Shared K R :=
  es.foldl Shared.step ⟨file, fun _ _ => none⟩

/-- C43 does not hold: two runs that overlap; the results of the first are lost. -/
theorem C43_negation : ¬ ∀ (es : List (Event Nat Nat)), Complete es →
    ∀ i k r, .add i k r ∈ es → ((execute (fun _ => none) es).file k).isSome := by
  intro h
  have := h [.load 0, .load 1, .add 0 10 100, .store 0, .add 1 11 101, .store 1] (by
    intro e he
    simp only [List.mem_cons, List.not_mem_nil, or_false] at he
    rcases he with rfl | rfl | rfl | rfl | rfl | rfl
    all_goals first
      | (refine ⟨[.add 0 10 100], ?_, ?_⟩ <;> simp [Event.run]; done)
      | (refine ⟨[.add 1 11 101], ?_, ?_⟩ <;> simp [Event.run]; done)) 0 10 100 (by simp)
  simp [execute, Shared.step] at this

/-- Storing a property of the value of key `k` that every added value of `k` has. -/
theorem kept_aux (P : Option R → Prop) (k : K) (i : Nat) (post : List (Event K R)) (s : Shared K R)
    (hadd : ∀ j r, .add j k r ∈ post → P (some r)) (L : List Nat)
    (hfile : P (s.file k)) (hi : P (s.mem i k)) (hL : ∀ j ∈ L, P (s.mem j k))
    (hstore : ∀ a j b, post = a ++ .store j :: b → j = i ∨ j ∈ L ∨ .load j ∈ a) :
    P ((post.foldl Shared.step s).file k) := by
  induction post generalizing s L with
  | nil => exact hfile
  | cons e post ih =>
    rw [List.foldl_cons]
    have hadd' : ∀ j r, .add j k r ∈ post → P (some r) := fun j r h => hadd j r (by simp [h])
    cases e with
    | load j =>
      apply ih (s.step (.load j)) hadd' (j :: L) hfile
      · show P ((if i = j then s.file else s.mem i) k)
        split <;> assumption
      · intro m hm
        show P ((if m = j then s.file else s.mem m) k)
        split
        · exact hfile
        · rename_i hne
          exact hL m (by rcases List.mem_cons.mp hm with h | h; exacts [absurd h hne, h])
      · intro a m b hab
        rcases hstore (.load j :: a) m b (by simp [hab]) with h | h | h
        · exact Or.inl h
        · exact Or.inr (Or.inl (by simp [h]))
        · rcases List.mem_cons.mp h with h | h
          · simp only [Event.load.injEq] at h
            exact Or.inr (Or.inl (by simp [h]))
          · exact Or.inr (Or.inr h)
    | add j k' r =>
      have key : ∀ m, P (s.mem m k) → P (((s.step (.add j k' r)).mem m) k) := by
        intro m hm
        show P ((if m = j then (fun k'' => if k'' = k' then some r else s.mem j k'') else s.mem m) k)
        split
        · rename_i hmj
          subst hmj
          show P (if k = k' then some r else s.mem m k)
          split
          · rename_i hk
            subst hk
            exact hadd m r (by simp)
          · exact hm
        · exact hm
      apply ih (s.step (.add j k' r)) hadd' L hfile (key i hi) (fun m hm => key m (hL m hm))
      intro a m b hab
      rcases hstore (.add j k' r :: a) m b (by simp [hab]) with h | h | h
      · exact Or.inl h
      · exact Or.inr (Or.inl h)
      · exact Or.inr (Or.inr (by simpa using h))
    | store j =>
      have hj : P (s.mem j k) := by
        rcases hstore [] j post rfl with h | h | h
        · exact h ▸ hi
        · exact hL j h
        · simp at h
      apply ih (s.step (.store j)) hadd' L hj hi hL
      intro a m b hab
      rcases hstore (.store j :: a) m b (by simp [hab]) with h | h | h
      · exact Or.inl h
      · exact Or.inr (Or.inl h)
      · exact Or.inr (Or.inr (by simpa using h))

/-- C43, partial: a result that is stored by run `i` is in the file at the end if every later store is by `i`
itself or by a run that loaded the file after that store. Overlapping runs are missing (`C43_negation`). -/
theorem C43_kept_partial (s : Shared K R) (i : Nat) (k : K) (post : List (Event K R))
    (hi : (s.mem i k).isSome)
    (hstore : ∀ a j b, post = a ++ .store j :: b → j = i ∨ .load j ∈ a) :
    (((.store i :: post).foldl Shared.step s).file k).isSome := by
  rw [List.foldl_cons]
  apply kept_aux (P := fun o => o.isSome = true) k i post (s.step (.store i)) (by simp) [] hi hi (by simp)
  intro a j b h
  rcases hstore a j b h with h | h
  · exact Or.inl h
  · exact Or.inr (Or.inr h)

/-- C43, partial: and it is unchanged if no later run computes that result. -/
theorem C43_unchanged_partial (s : Shared K R) (i : Nat) (k : K) (r : R) (post : List (Event K R))
    (hi : s.mem i k = some r) (hadd : ∀ j r', .add j k r' ∉ post)
    (hstore : ∀ a j b, post = a ++ .store j :: b → j = i ∨ .load j ∈ a) :
    ((.store i :: post).foldl Shared.step s).file k = some r := by
  rw [List.foldl_cons]
  apply kept_aux (P := fun o => o = some r) k i post (s.step (.store i)) (fun j r' h => absurd h (hadd j r')) [] hi hi (by simp)
  intro a j b h
  rcases hstore a j b h with h | h
  · exact Or.inl h
  · exact Or.inr (Or.inr h)

/-- Events of one run: load, then batches of results, each followed by a store. -/
def runEvents (i : Nat) (batches : List (List (K × R))) : List (Event K R) :=
  .load i :: batches.flatMap fun b => b.map (fun kr => .add i kr.1 kr.2) ++ [.store i]

theorem mem_adds (s : Shared K R) (i : Nat) (b : List (K × R)) :
    ((b.map (fun kr => Event.add i kr.1 kr.2)).foldl Shared.step s).file = s.file ∧
    ((b.map (fun kr => Event.add i kr.1 kr.2)).foldl Shared.step s).mem i = addAll (s.mem i) b := by
  induction b generalizing s with
  | nil => exact ⟨rfl, rfl⟩
  | cons kr b ih =>
    simp only [List.map_cons, List.foldl_cons]
    obtain ⟨h1, h2⟩ := ih (s.step (.add i kr.1 kr.2))
    refine ⟨h1, ?_⟩
    rw [h2]
    simp [Shared.step, addAll]

theorem file_batches (i : Nat) (bs : List (List (K × R))) (s : Shared K R) (h : s.file = s.mem i) :
    ((bs.flatMap fun b => b.map (fun kr => Event.add i kr.1 kr.2) ++ [Event.store i]).foldl Shared.step s).file =
      addAll s.file bs.flatten := by
  induction bs generalizing s with
  | nil => simp [addAll]
  | cons b bs ih =>
    rw [List.flatMap_cons, List.foldl_append, List.foldl_append]
    obtain ⟨h1, h2⟩ := mem_adds s i b
    rw [List.foldl_cons, List.foldl_nil, ih _ rfl]
    show addAll (((b.map (fun kr => Event.add i kr.1 kr.2)).foldl Shared.step s).mem i) bs.flatten = _
    rw [h2, ← h]
    simp [addAll, List.foldl_append]

/-- C43, partial: runs that do not overlap keep everything: the file has all old and new results. -/
theorem C43_sequential_partial (runs : List (Nat × List (List (K × R)))) (s : Shared K R) :
    ((runs.flatMap fun r => runEvents r.1 r.2).foldl Shared.step s).file =
      addAll s.file (runs.flatMap fun r => r.2.flatten) := by
  induction runs generalizing s with
  | nil => simp [addAll]
  | cons r runs ih =>
    rw [List.flatMap_cons, List.foldl_append, ih, runEvents, List.foldl_cons,
      file_batches _ _ _ (by simp [Shared.step])]
    simp [Shared.step, addAll, List.foldl_append]

/-- Two runs one after the other. -/
example : ∃ es : List (Event Nat Nat), es = runEvents 0 [[(10, 100)]] ++ runEvents 1 [[(11, 101)]] ∧
    (execute (fun _ => none) es).file 10 = some 100 ∧ (execute (fun _ => none) es).file 11 = some 101 := by
  refine ⟨_, rfl, ?_, ?_⟩ <;> decide

end

/-- C43 does not hold on the level of bytes either: with the same `.tmp` name, two overlapping runs storing `[1, 2, 3]`
and `[4, 5]` leave a result file that is neither, and one run stops with an error. -/
theorem C43_negation_bytes : ∃ schedule : List Nat,
    let r := runShared 0 schedule [⟨storeOps id [1, 2, 3], none⟩, ⟨storeOps id [4, 5], none⟩] ⟨[[9]], some 0, none⟩
    (r.1.all fun p => p.ops.length = 0) ∧ r.2.mainContent = some [4, 2, 3] :=
  ⟨[0, 0, 1, 1, 1, 0, 1, 0, 0], by decide⟩

end Verif.Cli
