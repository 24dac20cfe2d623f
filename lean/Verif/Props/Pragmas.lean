import Verif.Lemmas.Pragmas

/-!
C112: OpenMP directives of generated kernels.
-/

namespace Verif.Pragmas

/-- A line of generated code: an OpenMP directive with its indentation, or another one. -/
inductive Line where
  | directive (indent rest : List Char)
  | other (text : List Char)

/-- Its text. -/
def Line.text : Line → List Char
  | .directive indent rest => indent ++ "#pragma omp".toList ++ rest ++ ['\n']
  | .other text => text ++ ['\n']

/-- What is left of it in sequential code. -/
def Line.sequential : Line → List Char
  | .directive indent _ => indent
  | .other text => text ++ ['\n']

/-- Directives are whole lines; other lines do not mention them. -/
def Line.Plain : Line → Prop
  | .directive indent rest => (∀ c ∈ indent, c = ' ') ∧ '\n' ∉ rest
  | .other text => ¬ "#pragma omp".toList <:+: text

/-- C112: in sequential code exactly the OpenMP directives are left out, except for their indentation. -/
theorem C112_sequential (ls : List Line) (h : ∀ l ∈ ls, l.Plain) : withoutOmp 0 (ls.flatMap Line.text) = ls.flatMap Line.sequential := by
  induction ls with
  | nil => rfl
  | cons l ls ih =>
    have ih := ih fun x hx => h x (by simp [hx])
    have hl := h l (by simp)
    rw [List.flatMap_cons, List.flatMap_cons, ← ih]
    cases l with
    | directive i r =>
      obtain ⟨h1, h2⟩ := hl
      have e : (Line.directive i r).text ++ ls.flatMap Line.text = i ++ ("#pragma omp".toList ++ r ++ '\n' :: ls.flatMap Line.text) := by
        simp only [Line.text, List.append_assoc, List.cons_append, List.nil_append]
      rw [e, without_indent i _ h1, without_directive r _ h2]
      rfl
    | other t =>
      have e : (Line.other t).text ++ ls.flatMap Line.text = t ++ '\n' :: ls.flatMap Line.text := by simp [Line.text]
      rw [e, without_other t _ hl]
      simp [Line.sequential]

example : withoutOmp 0 "void kernel() {\n  #pragma omp for\n  #pragma ivdep\n  for (;;) a[i] = 0;\n}\n".toList =
    "void kernel() {\n    #pragma ivdep\n  for (;;) a[i] = 0;\n}\n".toList :=
  C112_sequential [.other "void kernel() {".toList, .directive "  ".toList " for".toList, .other "  #pragma ivdep".toList, .other "  for (;;) a[i] = 0;".toList,
    .other "}".toList] (by
    have hno : ∀ s : List Char, inText "#pragma omp".toList s = false → ¬ "#pragma omp".toList <:+: s := by
      intro s h hi
      rw [(inText_iff _ _).2 hi] at h
      cases h
    simp only [List.mem_cons, List.not_mem_nil, or_false]
    rintro l (rfl | rfl | rfl | rfl | rfl)
    · exact hno _ (by decide)
    · exact ⟨by decide, by decide⟩
    · exact hno _ (by decide)
    · exact hno _ (by decide)
    · exact hno _ (by decide))

/-- A directive that shares the iterations of a loop, as written in the kernel and as needed inside of a parallel region. -/
inductive Work : List Char → List Char → Prop
  | combined (c) (h : ¬ " parallel".toList <:+: c) : Work ("omp parallel for".toList ++ c) ("omp for".toList ++ c)
  | plain (c) (h : ¬ " parallel".toList <:+: c) : Work ("omp for".toList ++ c) ("omp for".toList ++ c)

/-- C112: in parallel code the loop is preceded by exactly one directive that shares its iterations: the one of the kernel, or a new one
if the kernel has no OpenMP directives. Other pragmas stay as they are. Then, the loop has no other pragmas before it. -/
theorem C112_parallel_partial (inner : List (List Char)) (n : Nat) :
    (∀ (pre : List (List Char)) (s t : List Char), (∀ p ∈ pre, ¬ "omp".toList <:+: p) → (∀ p ∈ inner, ¬ " parallel".toList <:+: p ∨ ¬ "omp".toList <:+: p) → Work s t →
      loopNest (pre.map Top.pragma ++ .pragma s :: .loop inner :: List.replicate n .call) =
        pre.map Top.pragma ++ .pragma t :: .loop inner :: List.replicate n .call) ∧
    ((∀ p ∈ inner, ¬ "omp".toList <:+: p) →
      loopNest (.loop inner :: List.replicate n .call) = .pragma "omp for".toList :: .loop inner :: List.replicate n .call) := by
  have hcalls : ∀ f : Top → Top, f .call = .call → (List.replicate n Top.call).map f = List.replicate n .call := by
    intro f hf
    rw [List.map_replicate, hf]
  have hkeep : ∀ p, ¬ "omp".toList <:+: p → rewritten p = p := by
    intro p hp
    rw [rewritten, if_neg]
    rw [inText_iff]
    exact hp
  have htexts : ∀ m, texts (List.replicate m Top.call) = [] := by
    intro m
    induction m with
    | zero => rfl
    | succ m ih => exact ih
  constructor
  · intro pre s t hpre hinner hw
    have hs : "omp".toList <:+: s ∧ rewritten s = t := by
      have hin : ∀ c : List Char, "omp".toList <:+: "omp parallel for".toList ++ c ∧ "omp".toList <:+: "omp for".toList ++ c :=
        fun c => ⟨⟨[], " parallel for".toList ++ c, rfl⟩, ⟨[], " for".toList ++ c, rfl⟩⟩
      cases hw with
      | combined c h =>
        refine ⟨(hin c).1, ?_⟩
        rw [rewritten, if_pos ((inText_iff _ _).2 (hin c).1), remove_parallel, remove_none _ _ h]
      | plain c h =>
        refine ⟨(hin c).2, ?_⟩
        rw [rewritten, if_pos ((inText_iff _ _).2 (hin c).2), remove_for, remove_none _ _ h]
    have hany : (texts (pre.map Top.pragma ++ .pragma s :: .loop inner :: List.replicate n .call)).any (inText "omp".toList) = true := by
      rw [List.any_eq_true]
      refine ⟨s, ?_, (inText_iff _ _).2 hs.1⟩
      simp [texts]
    have hi : inner.map rewritten = inner := by
      conv_rhs => rw [← List.map_id inner]
      apply List.map_congr_left
      intro p hp
      rcases hinner p hp with h | h
      · unfold rewritten
        split
        · exact remove_none _ _ h
        · rfl
      · exact hkeep p h
    unfold loopNest
    simp only
    rw [if_pos hany]
    simp only [List.map_append, List.map_cons, List.map_map, hs.2, hi, List.map_replicate]
    congr 1
    apply List.map_congr_left
    intro p hp
    simp [hkeep p (hpre p hp)]
  · intro hinner
    have hany : ¬ (texts (.loop inner :: List.replicate n .call)).any (inText "omp".toList) = true := by
      rw [List.any_eq_true]
      rintro ⟨p, hp, ho⟩
      have : texts (Top.loop inner :: List.replicate n .call) = inner ++ texts (List.replicate n .call) := rfl
      rw [this, htexts, List.append_nil] at hp
      exact hinner p hp ((inText_iff _ _).1 ho)
    have hi : inner.map rewritten = inner := by
      conv_rhs => rw [← List.map_id inner]
      exact List.map_congr_left fun p hp => hkeep p (hinner p hp)
    unfold loopNest
    simp only
    rw [if_neg hany]
    simp only [List.map_cons, hi, List.map_replicate]

example : loopNest [.pragma "ivdep".toList, .pragma "omp parallel for schedule(static)".toList, .loop ["unroll(4)".toList], .call] =
    [.pragma "ivdep".toList, .pragma "omp for schedule(static)".toList, .loop ["unroll(4)".toList], .call] := by
  have hno : ∀ p s : List Char, inText p s = false → ¬ p <:+: s := by
    intro p s h hi
    rw [(inText_iff _ _).2 hi] at h
    cases h
  exact (C112_parallel_partial ["unroll(4)".toList] 1).1 ["ivdep".toList] "omp parallel for schedule(static)".toList "omp for schedule(static)".toList
    (by intro p hp; rw [List.mem_singleton] at hp; subst hp; exact hno _ _ (by decide))
    (by intro p hp; rw [List.mem_singleton] at hp; subst hp; exact .inr (hno _ _ (by decide)))
    (.combined " schedule(static)".toList (hno _ _ (by decide)))

/-- A new directive is put before other pragmas of the loop, and not directly before the loop. -/
theorem C112_negation_place : loopNest [.pragma "ivdep".toList, .loop []] = [.pragma "omp for".toList, .pragma "ivdep".toList, .loop []] := by decide

/-- Any pragma with these three letters is taken for an OpenMP directive: the iterations of the loop are not shared. -/
theorem C112_negation_letters : loopNest [.pragma "vector complete".toList, .loop []] = [.pragma "vector complete".toList, .loop []] := by decide

/-- A parallel region around the loop becomes a directive without a name. -/
theorem C112_negation_region : loopNest [.pragma "omp parallel".toList, .loop []] = [.pragma "omp".toList, .loop []] := by decide

end Verif.Pragmas
