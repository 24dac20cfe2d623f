import Verif.Lemmas.Scopes

/-!
C150: names in generated code. Model: `Verif.Scopes`; specification: `Spec/Scopes.lean`, `Spec/ScopeNames.lean`.
-/

namespace Verif.Scopes

open Verif.CodeGen Verif.Spec Verif.Layout

/-- The full claim of C150 for a kernel: in the main program and in the kernel function all names stand for what is meant. -/
def C150Claim (k : Kernel) : Prop := Meant (mainEvents k) ∧ Meant (kernelEvents k)

/-- Names that the main program uses itself. -/
def taken : List String := ["warmup", "repeat", "argc", "argv"] ++ fileNames

/-- C150, main program: all names stand for what is meant if no variable or constant has a name that the program uses itself and no array
called `t` is swapped. Missing: such names, see `C150_negation_repeat` and `C150_negation_swap`. -/
theorem C150_main_partial (k : Kernel) (hk : Sensible k) (hr : ∀ n ∈ k.names, n ∉ taken) (ht : ∀ p ∈ k.swaps, p.1 ≠ "t" ∧ p.2 ≠ "t") :
    Meant (mainEvents k) := by
  have hr' : ∀ n ∈ k.names, n ∉ "argc" :: "argv" :: fileNames := fun n hn h => hr n hn (by
    unfold taken
    simp only [List.mem_cons, List.mem_append] at h ⊢
    tauto)
  have hw : ∀ n ∈ k.names, n ≠ "warmup" := fun n hn h => hr n hn (by simp [taken, h])
  have hp : ∀ n ∈ k.names, n ≠ "repeat" := fun n hn h => hr n hn (by simp [taken, h])
  obtain ⟨f0, -, v0⟩ := main_finds k hk hr' [] (by simp)
  obtain ⟨f1, -, -⟩ := main_finds k hk hr' [[("warmup", .own "warmup")]] (by simp)
  obtain ⟨f2, a2, v2⟩ := main_finds k hk hr' [[("repeat", .own "repeat")], [("warmup", .own "warmup")]] (by simp)
  simp only [List.nil_append, List.cons_append] at f0 v0 f2 a2 v2
  have v0' : ∀ n ∈ k.names, find [[], mainScope k, fileScope] n = some (.var n) := fun n hn => v0 n hn (hw n hn) (hp n hn)
  have v2' : ∀ n ∈ k.names, find [[("repeat", .own "repeat")], [("warmup", .own "warmup")], [], mainScope k, fileScope] n = some (.var n) :=
    fun n hn => v2 n hn (hw n hn) (hp n hn)
  have hinit : run [[], mainScope k, fileScope] (mainInit k) = some [[], mainScope k, fileScope] := by
    unfold mainInit
    rw [run_append, run_append, run_nest k.names k.refs k.loops [] _ _ hk.refs (by simp) (fun n hn _ => v0' n hn), Option.bind_some,
      run_flatMap_same _ _ _ (fun p hp => run_swap p _ (v0' _ (hk.swaps p hp).1) (v0' _ (hk.swaps p hp).2) (ht p hp).1 (ht p hp).2), Option.bind_some,
      run_dummy k _ f0 v0']
  have hrep : run [[], mainScope k, fileScope] mainRepeat = some [[("repeat", .own "repeat")], [("warmup", .own "warmup")], [], mainScope k, fileScope] := by
    unfold mainRepeat calls
    rw [run_cons]
    simp only [step, Option.bind_some]
    rw [run_cons]
    simp only [step, List.map_nil, List.not_mem_nil, if_false, Option.bind_some]
    rw [run_cons, step_use _ _ _ (find_cons_self _ _ _ _), Option.bind_some, run_cons]
    simp only [step, Option.bind_some]
    rw [run_cons]
    simp only [step, List.map_nil, List.not_mem_nil, if_false, Option.bind_some]
    rw [run_cons, step_use _ _ _ (by rw [find_cons_ne _ _ _ _ _ (by decide), find_nil]; exact find_cons_self _ _ _ _), Option.bind_some,
      run_cons, step_use _ _ _ (find_cons_self _ _ _ _), Option.bind_some, run_cons, step_use _ _ _ (f2 _ (by decide)), Option.bind_some,
      run_cons, step_use _ _ _ a2, Option.bind_some, run_cons, step_use _ _ _ (f2 _ (by decide)), Option.bind_some,
      run_cons, step_use _ _ _ (find_cons_self _ _ _ _)]
    rfl
  have hcall : run [[("repeat", .own "repeat")], [("warmup", .own "warmup")], [], mainScope k, fileScope] (mainCall k) =
      some [[("repeat", .own "repeat")], [("warmup", .own "warmup")], [], mainScope k, fileScope] := by
    unfold mainCall calls
    rw [List.cons_append, run_cons, step_use _ _ _ (f2 _ (by decide)), Option.bind_some, run_append, kernelCall_names,
      run_map_same _ _ _ (fun n hn => step_use _ _ _ (v2' n (mem_kernelCall k n hn))), Option.bind_some, run_dummy k _ f2 v2']
  refine ⟨[fileScope], ?_⟩
  unfold mainEvents
  rw [run_append, run_append, run_append, run_append, run_head k hk hr', Option.bind_some, hinit, Option.bind_some, hrep, Option.bind_some, hcall, Option.bind_some]
  unfold mainEnd calls
  rw [run_cons]
  simp only [step, Option.bind_some]
  rw [run_cons]
  simp only [step, Option.bind_some]
  rw [run_cons, step_use _ _ _ (f0 _ (by decide)), Option.bind_some, run_cons]
  simp only [step, Option.bind_some]
  have hc : find [mainScope k, fileScope] "likwid_markerClose" = some (.file "likwid_markerClose") := f0 _ (by decide)
  rw [run_cons, step_use _ _ _ hc]
  rfl

/-- C150: a variable or constant with a name that the main program uses itself always spoils it; only `aligned_malloc` may be harmless. -/
theorem C150_taken (k : Kernel) (hne : ∃ v t, k.Var v t) (n : String) (hn : n ∈ k.names) (ht : n ∈ taken) (ha : n ≠ "aligned_malloc") :
    ¬ Meant (mainEvents k) := by
  rintro ⟨s, h⟩
  unfold mainEvents at h
  obtain ⟨h, hend⟩ := run_split _ _ _ _ h
  obtain ⟨h, hcall⟩ := run_split _ _ _ _ h
  obtain ⟨h, hrep⟩ := run_split _ _ _ _ h
  obtain ⟨hhead, hinit⟩ := run_split _ _ _ _ h
  have hstate : (mainRepeat).foldl eff [[], mainScope k, fileScope] =
      [[("repeat", .own "repeat")], [("warmup", .own "warmup")], [], mainScope k, fileScope] := rfl
  have hcalleff : (mainCall k).foldl eff [[("repeat", .own "repeat")], [("warmup", .own "warmup")], [], mainScope k, fileScope] =
      [[("repeat", .own "repeat")], [("warmup", .own "warmup")], [], mainScope k, fileScope] := by
    refine eff_uses _ (fun e he => ?_) _
    unfold mainCall at he
    rw [List.cons_append, List.mem_cons, List.mem_append, kernelCall_names] at he
    rcases he with rfl | he | he
    · exact ⟨_, _, rfl⟩
    · obtain ⟨x, -, rfl⟩ := List.mem_map.1 he
      exact ⟨_, _, rfl⟩
    · exact dummyEvents_uses k.items e he
  simp only [List.foldl_append, eff_head, eff_init, hstate, hcalleff] at hend hcall hrep hinit hhead
  have hnd := run_nodup _ _ _ (by simp) hhead (mainScope k) (by simp)
  have hnd2 := ((mainScope_names k).nodup_iff).1 hnd
  rw [List.nodup_cons, List.nodup_cons, List.mem_cons, not_or] at hnd2
  have hmem : (n, Thing.var n) ∈ mainScope k := by
    unfold mainScope
    refine List.mem_append_left _ (List.mem_reverse.2 ?_)
    obtain ⟨d, hd, rfl⟩ := List.mem_map.1 ((mainVars_names k).mem_iff.2 hn)
    exact List.mem_map_of_mem (f := fun d : Decl => (d.name, Thing.var d.name)) hd
  have hvar := find_mem (mainScope k) [fileScope] hnd n _ hmem
  -- in the call of the kernel
  have hv : find [[("repeat", .own "repeat")], [("warmup", .own "warmup")], [], mainScope k, fileScope] n = some (.var n) := by
    obtain ⟨l, r, hlr⟩ := List.append_of_mem (kernelCall_mem k n hn)
    have : mainCall k = (calls "kernel" :: l.map fun n => .use n (.var n)) ++ .use n (.var n) :: (r.map (fun n => .use n (.var n)) ++ dummyEvents k.items) := by
      unfold mainCall
      rw [kernelCall_names, hlr]
      simp
    rw [this] at hcall
    have := run_finds _ _ _ _ _ _ hcall
    rwa [eff_uses _ (fun e he => by
      rcases List.mem_cons.1 he with rfl | he
      · exact ⟨_, _, rfl⟩
      · obtain ⟨x, -, rfl⟩ := List.mem_map.1 he
        exact ⟨_, _, rfl⟩)] at this
  have hbad : ∀ sc, find sc n = some (.var n) → find sc n = some (.file n) → False := by
    intro sc h1 h2
    rw [h1] at h2
    cases h2
  have hbad' : find [mainScope k, fileScope] n = some (.file n) → False := hbad _ hvar
  simp only [taken, fileNames, List.mem_append, List.mem_cons, List.not_mem_nil, or_false] at ht
  rcases ht with (rfl | rfl | rfl | rfl) | rfl | rfl | rfl | rfl | rfl | rfl | rfl | rfl | rfl | rfl
  · revert hv
    rw [find_cons_ne _ _ _ _ _ (by decide), find_nil, find_cons_self]
    simp
  · revert hv
    rw [find_cons_self]
    simp
  · exact hnd2.2.1 hn
  · exact hnd2.1.2 hn
  · -- atoi
    exact hbad _ hv (run_finds (mainRepeat.take 7) (mainRepeat.drop 8) _ _ _ _ hrep)
  · exact ha rfl
  · exact hbad _ hv (run_finds [] _ _ _ _ _ hcall)
  · -- dummy
    obtain ⟨v, t, hvt⟩ := hne
    have : ∃ a l, dummyCalls k.items = a :: l := by
      cases hd : dummyCalls k.items with
      | cons a l => exact ⟨a, l, rfl⟩
      | nil =>
        have : ∃ a, a ∈ dummyCalls k.items := by
          cases t with
          | base b => exact ⟨.addr v, List.mem_filterMap.2 ⟨_, hvt, rfl⟩⟩
          | arr d t => exact ⟨.id v, List.mem_filterMap.2 ⟨_, hvt, rfl⟩⟩
        obtain ⟨a, ha⟩ := this
        rw [hd] at ha
        simp at ha
    obtain ⟨a, l, hal⟩ := this
    have he : mainInit k = (nest [] k.refs k.loops ++ k.swaps.flatMap swapMacro ++ [calls "var_false"]) ++ .use "dummy" (.file "dummy") ::
        (argUse a :: l.flatMap fun a => [calls "dummy", argUse a]) := by
      unfold mainInit dummyEvents
      rw [hal]
      simp [calls]
    rw [he] at hinit
    have := run_finds _ _ _ _ _ _ hinit
    rw [List.foldl_append, List.foldl_append, eff_nest, eff_swaps] at this
    exact hbad' this
  · -- var_false
    have he : mainInit k = (nest [] k.refs k.loops ++ k.swaps.flatMap swapMacro) ++ .use "var_false" (.file "var_false") ::
        ((dummyCalls k.items).flatMap fun a => [calls "dummy", argUse a]) := by
      unfold mainInit dummyEvents
      simp [calls]
    rw [he] at hinit
    have := run_finds _ _ _ _ _ _ hinit
    rw [List.foldl_append, eff_nest, eff_swaps] at this
    exact hbad' this
  · -- likwid_markerInit
    unfold mainHead at hhead
    obtain ⟨-, h2⟩ := run_split _ _ _ _ hhead
    have := run_finds [] _ _ _ _ _ h2
    rw [List.foldl_nil, List.foldl_append, List.foldl_append, show (fileNames.map fun n => Event.decl n (.file n)).foldl eff [[]] = [fileScope] by decide] at this
    simp only [List.foldl_cons, List.foldl_nil, eff] at this
    rw [eff_decls] at this
    exact hbad' this
  · unfold mainHead at hhead
    obtain ⟨-, h2⟩ := run_split _ _ _ _ hhead
    have := run_finds [calls "likwid_markerInit", .enter] _ _ _ _ _ h2
    rw [List.foldl_append, List.foldl_append, show (fileNames.map fun n => Event.decl n (.file n)).foldl eff [[]] = [fileScope] by decide] at this
    simp only [List.foldl_cons, List.foldl_nil, eff] at this
    rw [eff_decls] at this
    exact hbad' this
  · exact hbad _ hv (run_finds (mainRepeat.take 9) (mainRepeat.drop 10) _ _ _ _ hrep)
  · exact hbad' (run_finds [.leave, .leave] _ _ _ _ _ hend)
  · exact hbad' (run_finds [.leave, .leave, calls "likwid_markerStopRegion", .leave] _ _ _ _ _ hend)

/-- C150, kernel function: all names stand for what is meant if and only if the kernel has no swaps and no variable or constant is called as
a scalar with an underscore. -/
theorem C150_kernel (k : Kernel) (hk : Sensible k) :
    Meant (kernelEvents k) ↔ k.swaps = [] ∧ ∀ s t, k.Var s (.base t) → s ++ "_" ∉ k.names := by
  have hscal : ∀ s, (∃ t, k.Var s (.base t)) ↔ s ∈ (scalarDecls k.items).map Prod.fst := by
    intro s
    unfold scalarDecls Kernel.Var
    simp only [List.mem_map, List.mem_filterMap]
    constructor
    · rintro ⟨t, h⟩
      exact ⟨(s, .base t), ⟨_, h, rfl⟩, rfl⟩
    · rintro ⟨⟨s', t'⟩, ⟨i, hi, h⟩, rfl⟩
      cases i with
      | other => simp at h
      | decl m u =>
        cases u with
        | arr d u => simp at h
        | base b =>
          simp only [Option.some.injEq, Prod.mk.injEq] at h
          exact ⟨b, h.1 ▸ hi⟩
  have hnd : ((kernelScope k).map Prod.fst).Nodup ↔ ∀ s t, k.Var s (.base t) → s ++ "_" ∉ k.names := by
    rw [(kernelScope_names k).nodup_iff, List.nodup_append]
    have hsn : ((scalarDecls k.items).map fun d => d.1 ++ "_").Nodup := by
      have : ((scalarDecls k.items).map Prod.fst).Nodup := by
        have h1 := hk.distinct
        unfold Kernel.names at h1
        rw [List.nodup_append, (varNames_perm k.items).nodup_iff, List.nodup_append] at h1
        exact h1.1.2.1
      have h2 : ((scalarDecls k.items).map fun d => d.1 ++ "_") = ((scalarDecls k.items).map Prod.fst).map (· ++ "_") := by
        rw [List.map_map]
        rfl
      rw [h2]
      exact this.map fun a b h => by simpa using h
    constructor
    · rintro ⟨-, -, h⟩ s t hs hc
      obtain ⟨d, hd, rfl⟩ := List.mem_map.1 ((hscal s).1 ⟨t, hs⟩)
      exact h _ hc _ (List.mem_map_of_mem hd) rfl
    · intro h
      refine ⟨hk.distinct, hsn, ?_⟩
      rintro a ha b hb rfl
      obtain ⟨d, hd, rfl⟩ := List.mem_map.1 hb
      obtain ⟨t, ht⟩ := (hscal d.1).2 (List.mem_map_of_mem hd)
      exact h d.1 t ht ha
  have hev : kernelEvents k = [.decl "kernel" (.file "kernel"), .enter] ++ ((kernelScope k).reverse.map (fun p => .decl p.1 p.2) ++
      (copyEvents k ++ nest [] k.body k.loops ++ (k.swaps.flatMap (fun p => [calls "swap", .use p.1 (.var p.1), .use p.2 (.var p.2)]) ++ (copyEvents k ++ [.leave])))) := by
    rw [← kernelDecls_eq]
    unfold kernelEvents
    simp
  have hstart : run [[]] [.decl "kernel" (.file "kernel"), .enter] = some [[], [("kernel", .file "kernel")]] := by decide
  unfold Meant
  rw [hev, ← hnd]
  simp only [run_append, hstart, Option.bind_some]
  by_cases hn : ((kernelScope k).map Prod.fst).Nodup
  swap
  · rw [run_not_nodup _ _ _ (by simp) (by rw [List.append_nil, List.reverse_reverse]; exact hn)]
    simp [hn]
  rw [run_declare _ _ _ (by rw [List.append_nil, List.reverse_reverse]; exact hn), List.append_nil, List.reverse_reverse, Option.bind_some]
  have hvars : ∀ n ∈ k.names, find [kernelScope k, [("kernel", .file "kernel")]] n = some (.var n) := by
    intro n h
    refine find_mem _ _ hn _ _ ?_
    unfold kernelScope
    rw [List.mem_reverse]
    have := kernelCall_mem k n h
    simp only [List.mem_append, List.mem_map] at this ⊢
    rcases this with (⟨d, hd, rfl⟩ | ⟨d, hd, rfl⟩) | h
    · exact Or.inl (Or.inl (Or.inl ⟨d, hd, rfl⟩))
    · exact Or.inr ⟨d, hd, rfl⟩
    · exact Or.inl (Or.inr ⟨n, h, rfl⟩)
  have hcopy : run [kernelScope k, [("kernel", .file "kernel")]] (copyEvents k) = some [kernelScope k, [("kernel", .file "kernel")]] := by
    unfold copyEvents
    refine run_flatMap_same _ _ _ fun c hc => ?_
    unfold scalarCopies getScalars at hc
    rw [List.map_map] at hc
    obtain ⟨d, hd, rfl⟩ := List.mem_map.1 hc
    simp only [Function.comp, String.append_empty]
    have h1 : find [kernelScope k, [("kernel", .file "kernel")]] d.1 = some (.var d.1) :=
      hvars d.1 (mem_kernelCall k d.1 (by simp only [List.mem_append, List.mem_map]; exact Or.inl (Or.inr ⟨d, hd, rfl⟩)))
    have h2 : find [kernelScope k, [("kernel", .file "kernel")]] (d.1 ++ "_") = some (.arg (d.1 ++ "_")) := by
      refine find_mem _ _ hn _ _ ?_
      unfold kernelScope
      rw [List.mem_reverse]
      simp only [List.mem_append, List.mem_map]
      exact Or.inl (Or.inl (Or.inr ⟨d, hd, rfl⟩))
    rw [run_cons, step_use _ _ _ h1, Option.bind_some, run_cons, step_use _ _ _ h2]
    rfl
  rw [hcopy, Option.bind_some, run_nest k.names k.body k.loops [] _ _ hk.body (by simp) (fun n h _ => hvars n h), Option.bind_some]
  cases hs : k.swaps with
  | nil =>
    simp only [List.flatMap_nil, run_nil, Option.bind_some, hcopy]
    exact ⟨fun _ => ⟨trivial, hn⟩, fun _ => ⟨_, rfl⟩⟩
  | cons p l =>
    have hsw : "swap" ∈ (kernelScope k).map Prod.fst ∨ find [kernelScope k, [("kernel", .file "kernel")]] "swap" = none := by
      by_cases h : "swap" ∈ (kernelScope k).map Prod.fst
      · exact Or.inl h
      · right
        rw [find_not_mem _ _ _ h]
        decide
    have hno : find [kernelScope k, [("kernel", .file "kernel")]] "swap" ≠ some (.file "swap") := by
      rcases hsw with h | h
      · obtain ⟨⟨m, t⟩, hm, he⟩ := List.mem_map.1 h
        simp only at he
        subst he
        rw [find_mem _ _ hn _ _ hm]
        intro hc
        cases hc
        unfold kernelScope at hm
        simp at hm
      · rw [h]
        simp
    rw [List.flatMap_cons, List.cons_append, run_cons, show calls "swap" = .use "swap" (.file "swap") from rfl, step_use_none _ _ _ hno]
    simp

/-- C150: every variable is passed to `dummy` once, arrays as they are and scalars by their address, and nothing else is. -/
theorem C150_dummy (items : List Item) :
    (dummyCalls items).map (fun | .id n => n | .addr n => n) = varNames items ∧
    ∀ n, (Arg.id n ∈ dummyCalls items ↔ ∃ d t, Item.decl n (.arr d t) ∈ items) ∧ (Arg.addr n ∈ dummyCalls items ↔ ∃ t, Item.decl n (.base t) ∈ items) := by
  induction items with
  | nil => simp [dummyCalls, varNames]
  | cons i l ih =>
    obtain ⟨h1, h2⟩ := ih
    cases i with
    | other => exact ⟨h1, fun n => by simpa [dummyCalls] using h2 n⟩
    | decl m t =>
      cases t with
      | base b =>
        refine ⟨by simpa [dummyCalls, varNames] using h1, fun n => ⟨?_, ?_⟩⟩
        · simpa [dummyCalls] using (h2 n).1
        · have := (h2 n).2
          simp only [dummyCalls, List.filterMap_cons, List.mem_cons, Arg.addr.injEq, Item.decl.injEq, CType.base.injEq] at this ⊢
          rw [this]
          constructor
          · rintro (rfl | ⟨t, h⟩)
            · exact ⟨b, Or.inl ⟨rfl, rfl⟩⟩
            · exact ⟨t, Or.inr h⟩
          · rintro ⟨t, ⟨rfl, -⟩ | h⟩
            · exact Or.inl rfl
            · exact Or.inr ⟨t, h⟩
      | arr d t =>
        refine ⟨by simpa [dummyCalls, varNames] using h1, fun n => ⟨?_, ?_⟩⟩
        · have := (h2 n).1
          simp only [dummyCalls, List.filterMap_cons, List.mem_cons, Arg.id.injEq, Item.decl.injEq, CType.arr.injEq] at this ⊢
          rw [this]
          constructor
          · rintro (rfl | ⟨d', t', h⟩)
            · exact ⟨d, t, Or.inl ⟨rfl, rfl, rfl⟩⟩
            · exact ⟨d', t', Or.inr h⟩
          · rintro ⟨d', t', ⟨rfl, -⟩ | h⟩
            · exact Or.inl rfl
            · exact Or.inr ⟨d', t', h⟩
        · simpa [dummyCalls] using (h2 n).2

/-- `double a[N]; double b[N]; double s; for (int i = 0; i < N; ++i) b[i] = s * a[i];` with a given name for the constant, and swaps. -/
def scaled (N b : String) (swaps : List (String × String)) : Kernel :=
  ⟨[.decl "a" (.arr (.var N) (.base "double")), .decl b (.arr (.var N) (.base "double")), .decl "s" (.base "double"), .other], ["int"], [N],
   [("i", ["i", N])], [b, "i", "s", "a", "i"], [b, "i", "a", "i"], swaps⟩

theorem scaled_sensible (N b : String) (swaps : List (String × String)) (hd : ["a", b, "s", N].Nodup)
    (hs : ∀ p ∈ swaps, p.1 ∈ ["a", b, "s", N] ∧ p.2 ∈ ["a", b, "s", N]) : Sensible (scaled N b swaps) := by
  refine ⟨hd, ?_, ?_, ?_, hs⟩
  · intro n t h d hd x hx
    simp only [scaled, Kernel.Var, List.mem_cons, Item.decl.injEq, List.not_mem_nil, or_false, reduceCtorEq] at h
    rcases h with ⟨-, rfl⟩ | ⟨-, rfl⟩ | ⟨-, rfl⟩ <;> simp [CType.dims] at hd
    all_goals
      subst hd
      simpa [scaled, Sym.free] using hx
  · simp [scaled, Known, Kernel.names, varNames]
  · simp [scaled, Known, Kernel.names, varNames]

/-- C150 is false: with a constant called `repeat`, the kernel of the main program is called with the number of repetitions. -/
theorem C150_negation_repeat : Sensible (scaled "repeat" "b" []) ∧ ¬ Meant (mainEvents (scaled "repeat" "b" [])) :=
  ⟨scaled_sensible _ _ _ (by decide) (by simp), by decide +kernel⟩

/-- C150 is false: the macro `swap` does not exchange an array called `t`. -/
theorem C150_negation_swap : Sensible (scaled "N" "t" [("a", "t")]) ∧ ¬ Meant (mainEvents (scaled "N" "t" [("a", "t")])) :=
  ⟨scaled_sensible _ _ _ (by decide) (by simp), by decide +kernel⟩

/-- C150 is false: the kernel function calls `swap`, which is not declared there. -/
theorem C150_negation_kernel : Sensible (scaled "N" "b" [("a", "b")]) ∧ Meant (mainEvents (scaled "N" "b" [("a", "b")])) ∧
    ¬ Meant (kernelEvents (scaled "N" "b" [("a", "b")])) :=
  ⟨scaled_sensible _ _ _ (by decide) (by simp), by decide +kernel, by decide +kernel⟩

/-- A kernel without such names. -/
example : C150Claim (scaled "N" "b" []) :=
  have h := scaled_sensible "N" "b" [] (by decide) (by simp)
  ⟨C150_main_partial _ h (by decide) (by decide),
   (C150_kernel _ h).2 ⟨rfl, by
     intro s t hs
     simp only [scaled, Kernel.Var, List.mem_cons, Item.decl.injEq, List.not_mem_nil, or_false, reduceCtorEq, and_false, false_or] at hs
     rw [hs.1]
     decide⟩⟩

example : ¬ Meant (mainEvents (scaled "dummy" "b" [])) := C150_taken _ ⟨"s", .base "double", by simp [Kernel.Var, scaled]⟩ "dummy" (by decide) (by decide) (by decide)

example : dummyCalls (scaled "N" "b" []).items = [.id "a", .id "b", .addr "s"] := by decide

end Verif.Scopes
