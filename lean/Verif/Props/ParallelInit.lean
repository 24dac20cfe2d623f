import Verif.Lemmas.ParallelInit
import Verif.Spec.Program
import Verif.Props.Parallel

/-!
C152: Parallel runs read initialised elements only.
-/

namespace Verif.Parallel

open Verif.CodeGen

variable {V : Type}

theorem shares_iff {iters : List (List (Assign Name V))} {parts : List (List (List (Assign Name V)))} (h : Shares iters parts)
    (i : List (Assign Name V)) : (∃ p ∈ parts, i ∈ p) ↔ i ∈ iters := by
  rw [← h.mem_iff, List.mem_flatten]

/-- C152: after the initialisation, however it is shared between threads and whatever the order of their steps, all elements that the
loop nest accesses have the value given; everything else is as before. -/
theorem C152_initialised (c : V) (iters : List (List (Assign Name V))) (initParts : List (List (List (Assign Name V)))) (order : List Nat)
    (m m' : Loc → V) (hs : Shares iters initParts) (h : phase order (initPhase c initParts) m = some m') :
    (∀ b k, Accessed iters b k → m' (.elem b k) = c) ∧ (∀ b k, ¬ Accessed iters b k → m' (.elem b k) = m (.elem b k)) ∧
      ∀ s, m' (.main s) = m (.main s) ∧ m' (.static s) = m (.static s) := by
  obtain ⟨h1, h2⟩ := initPhase_result c initParts order m m' h
  refine ⟨?_, ?_, fun s => ⟨h2 _ (by simp), h2 _ (by simp)⟩⟩
  · rintro b k ⟨i, hi, a, ha, hn⟩
    obtain ⟨p, hp, hip⟩ := (shares_iff hs i).2 hi
    exact h1 p hp i hip a ha b k hn
  · intro b k hb
    refine h2 _ ?_
    rintro p hp i hip a ha b' k' hn e
    cases e
    exact hb ⟨i, (shares_iff hs i).1 ⟨p, hp, hip⟩, a, ha, hn⟩

variable [Inhabited V]

/-- C152: the elements before the initialisation have no influence, for all kernels, whether their iterations are independent or not:
with the same order of steps, the scalars and all elements accessed are the same in the end, and elements not accessed stay. -/
theorem C152_determined (c : V) (items : List Item) (threads : Nat) (iters : List (List (Assign Name V)))
    (initParts : List (List (List (Assign Name V)))) (calls : List (List (List (List (Assign Name V))))) (orders : List (List Nat))
    (m m2 m' : Loc → V) (hi : Shares iters initParts) (hc : ∀ parts ∈ calls, Shares iters parts)
    (hm : ∀ s, m (.main s) = m2 (.main s) ∧ m (.static s) = m2 (.static s))
    (h : region c items threads initParts calls orders m = some m') :
    ∃ m2', region c items threads initParts calls orders m2 = some m2' ∧ (∀ s, m' (.main s) = m2' (.main s)) ∧
      (∀ b k, Accessed iters b k → m' (.elem b k) = m2' (.elem b k)) ∧ ∀ b k, ¬ Accessed iters b k → m' (.elem b k) = m (.elem b k) := by
  unfold region at h ⊢
  cases orders with
  | nil => cases h
  | cons o os =>
    simp only [runPhases] at h ⊢
    cases hp : phase o (initPhase c initParts) m with
    | none => rw [hp] at h; cases h
    | some m1 =>
      rw [hp, Option.bind_some] at h
      obtain ⟨n1, hn1, -⟩ := runPhases_agree (fun _ => False) [initPhase c initParts] (by
        intro p hp q hq a ha l hl
        obtain rfl := List.mem_singleton.1 hp
        obtain ⟨part, -, rfl⟩ := List.mem_map.1 hq
        obtain ⟨x, -, hx⟩ := List.mem_flatMap.1 ha
        obtain ⟨n, -, hn⟩ := List.mem_filterMap.1 hx
        cases n with
        | scalar s => cases hn
        | elem b k => cases hn; simp at hl) [o] m m2 m1 (by simp) (by simp [runPhases, hp])
      have hp2 : phase o (initPhase c initParts) m2 = some n1 := by
        simp only [runPhases] at hn1
        cases hq : phase o (initPhase c initParts) m2 with
        | none => rw [hq] at hn1; cases hn1
        | some x => rw [hq] at hn1; exact hn1
      rw [hp2, Option.bind_some]
      obtain ⟨a1, a2, a3⟩ := C152_initialised c iters initParts o m m1 hi hp
      obtain ⟨b1, -, b3⟩ := C152_initialised c iters initParts o m2 n1 hi hp2
      let S : Loc → Prop := fun l => ∀ b k, l = .elem b k → Accessed iters b k
      have hS : ∀ l, S l → m1 l = n1 l := by
        intro l hl
        cases l with
        | main s => rw [(a3 s).1, (b3 s).1, (hm s).1]
        | static s => rw [(a3 s).2, (b3 s).2, (hm s).2]
        | elem b k => rw [a1 b k (hl b k rfl), b1 b k (hl b k rfl)]
      have hcall : ∀ parts ∈ calls, ∀ part ∈ parts, ∀ i ∈ part, i ∈ iters := fun parts hps part hpt i hip =>
        (shares_iff (hc parts hps) i).1 ⟨part, hpt, hip⟩
      have hplace : ∀ (i : List (Assign Name V)) (a : Assign Name V) (n : Name), i ∈ iters → a ∈ i → n ∈ a.places → S (place n) := by
        rintro i a n hi' ha hn b k e
        cases n with
        | scalar s => cases e
        | elem b' k' => cases e; exact ⟨i, hi', a, ha, hn⟩
      obtain ⟨m2', h1, h2⟩ := runPhases_agree S (phases items threads [] calls) (by
        intro p hp q hq a ha l hl
        rcases phases_mem items threads calls [] p hp q hq a ha with h | h | h | ⟨parts, hps, part, hpt, i, hip, x, hx, rfl⟩
        · simp at h
        · obtain ⟨s, -, rfl⟩ := List.mem_map.1 h
          simp only [copy, List.mem_singleton] at hl
          subst hl
          rintro b k ⟨⟩
        · obtain ⟨s, -, rfl⟩ := List.mem_map.1 h
          simp only [copy, List.mem_singleton] at hl
          subst hl
          rintro b k ⟨⟩
        · obtain ⟨n, hn, rfl⟩ := List.mem_map.1 hl
          exact hplace i x n (hcall parts hps part hpt i hip) hx (List.mem_cons_of_mem _ hn)) os m1 n1 m' hS h
      refine ⟨m2', h1, fun s => h2 _ (by rintro b k ⟨⟩), fun b k hb => h2 _ (by rintro b' k' ⟨⟩; exact hb), ?_⟩
      intro b k hb
      rw [runPhases_untouched (.elem b k) (phases items threads [] calls) ?_ os m1 m' h, a2 b k hb]
      intro p hp q hq a ha e
      rcases phases_mem items threads calls [] p hp q hq a ha with h | h | h | ⟨parts, hps, part, hpt, i, hip, x, hx, rfl⟩
      · simp at h
      · obtain ⟨s, -, rfl⟩ := List.mem_map.1 h; cases e
      · obtain ⟨s, -, rfl⟩ := List.mem_map.1 h; cases e
      · exact hb (hplace i x x.target (hcall parts hps part hpt i hip) hx (by simp [Assign.places]) b k e)

/-- C152: for kernels with independent iterations that do not write scalars, the whole region leaves what the loop nest leaves, executed
as often as it is called, when it begins with the value given in all elements that it accesses. -/
theorem C152_result (c : V) (items : List Item) (threads : Nat) (iters : List (List (Assign Name V)))
    (initParts : List (List (List (Assign Name V)))) (calls : List (List (List (List (Assign Name V))))) (orders : List (List Nat))
    (m m' : Loc → V) (start : Name → V) (hi : Shares iters initParts) (hind : iters.Pairwise Independent)
    (hk : ∀ i ∈ iters, ∀ a ∈ i, KeepsScalars (scalarNames items) a) (hc : ∀ parts ∈ calls, parts.length = threads ∧ Shares iters parts)
    (hstart : (∀ s, start (.scalar s) = m (.main s)) ∧ (∀ b k, Accessed iters b k → start (.elem b k) = c) ∧
      ∀ b k, ¬ Accessed iters b k → start (.elem b k) = m (.elem b k))
    (h : region c items threads initParts calls orders m = some m') : visible m' = repeated iters calls.length start := by
  unfold region at h
  cases orders with
  | nil => cases h
  | cons o os =>
    simp only [runPhases] at h
    cases hp : phase o (initPhase c initParts) m with
    | none => rw [hp] at h; cases h
    | some m1 =>
      rw [hp, Option.bind_some] at h
      obtain ⟨a1, a2, a3⟩ := C152_initialised c iters initParts o m m1 hi hp
      have hv : visible m1 = start := by
        funext n
        cases n with
        | scalar s => rw [hstart.1]; exact (a3 s).1
        | elem b k =>
          by_cases hb : Accessed iters b k
          · rw [hstart.2.1 b k hb]; exact a1 b k hb
          · rw [hstart.2.2 b k hb]; exact a2 b k hb
      rw [← hv]
      exact C151_independent_partial items threads iters calls os m1 m' hind hk hc h

/-- C152: the region comes to its end in some order of steps. -/
theorem C152_possible (c : V) (items : List Item) (threads : Nat) (initParts : List (List (List (Assign Name V))))
    (calls : List (List (List (List (Assign Name V))))) (m : Loc → V) : ∃ orders m', region c items threads initParts calls orders m = some m' :=
  runPhases_exists _ m

/-! ### Examples -/

/-- A kernel with races: a recurrence, initialised by the threads in another distribution. -/
example (orders : List (List Nat)) (m2 m' : Loc → Int) (hm : ∀ s, wMem (.main s) = m2 (.main s) ∧ wMem (.static s) = m2 (.static s))
    (h : region 7 wItems 2 [[shift 1], [shift 0]] [[[shift 0], [shift 1]]] orders wMem = some m') :
    ∃ m2', region 7 wItems 2 [[shift 1], [shift 0]] [[[shift 0], [shift 1]]] orders m2 = some m2' ∧
      m' (.elem "a" 1) = m2' (.elem "a" 1) ∧ m' (.elem "a" 2) = 4 := by
  obtain ⟨m2', h1, -, h2, h3⟩ := C152_determined 7 wItems 2 [shift 0, shift 1] [[shift 1], [shift 0]] _ orders wMem m2 m' (List.Perm.swap _ _ []) (by
    intro parts hp
    obtain rfl := List.mem_singleton.1 hp
    exact List.Perm.refl _) hm h
  refine ⟨m2', h1, h2 _ _ ⟨shift 1, by simp, _, List.mem_singleton.2 rfl, by simp [Assign.places]⟩, h3 _ _ ?_⟩
  rintro ⟨i, hi, a, ha, hn⟩
  simp only [List.mem_cons, List.not_mem_nil, or_false] at hi
  rcases hi with rfl | rfl <;>
  · simp only [shift, List.mem_singleton] at ha
    subst ha
    simp [Assign.places] at hn

/-- Initialisation of `a[i]`, `a[i-1]` by two threads, then one call. -/
example : (region 7 wItems 2 [[shift 1], [shift 0]] [[[shift 0], [shift 1]]] [[0, 1, 1, 0], inTurn 4 4, inTurn 2 2] wMem).map
    (fun m => (m (.elem "a" (-1)), m (.elem "a" 0), m (.elem "a" 1), m (.elem "a" 2), m (.main "s"))) = some (7, 7, 7, 4, 3) := by
  decide +kernel

example (orders : List (List Nat)) (m' : Loc → Int) (h : region 7 wItems 2 [[daxpy 1], [daxpy 0]] [[[daxpy 0], [daxpy 1]]] orders wMem = some m') :
    m' (.elem "a" 0) = 28 := by
  have h1 := C152_result 7 wItems 2 ([0, 1].map daxpy) [[daxpy 1], [daxpy 0]] _ orders wMem m'
    (fun | .scalar s => wMem (.main s) | .elem b k => if (b = "a" ∨ b = "b") ∧ (k = 0 ∨ k = 1) then 7 else wMem (.elem b k))
    (List.Perm.swap _ _ []) (daxpy_independent _ (by decide)) (daxpy_keeps _) (by
      intro parts hp
      obtain rfl := List.mem_singleton.1 hp
      exact ⟨rfl, List.Perm.refl _⟩) ⟨fun _ => rfl, fun b k hb => ?_, fun b k hb => ?_⟩ h
  · exact (congrFun h1 (.elem "a" 0)).trans (by decide +kernel)
  · obtain ⟨i, hi, a, ha, hn⟩ := hb
    obtain ⟨x, hx, rfl⟩ := List.mem_map.1 hi
    simp only [daxpy, List.mem_singleton] at ha
    subst ha
    simp only [List.mem_cons, List.not_mem_nil, or_false] at hx
    simp only [Assign.places, List.mem_cons, Name.elem.injEq, List.not_mem_nil, or_false, reduceCtorEq, false_or] at hn
    refine if_pos ?_
    rcases hn with ⟨rfl, rfl⟩ | ⟨rfl, rfl⟩ | ⟨rfl, rfl⟩ <;> simp [hx]
  · refine if_neg ?_
    rintro ⟨hb1, hk⟩
    refine hb ⟨daxpy k, List.mem_map.2 ⟨k, by rcases hk with rfl | rfl <;> simp, rfl⟩, _, List.mem_singleton.2 rfl, ?_⟩
    rcases hb1 with rfl | rfl <;> simp [Assign.places]

end Verif.Parallel
