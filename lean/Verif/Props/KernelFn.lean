import Verif.Lemmas.KernelFn

/-!
C111: the kernel function does what the loop nest does.
-/

namespace Verif.KernelFn

open Verif.CodeGen

variable {V A : Type}

/-- Names of the scalars of a kernel. -/
def scalars (items : List Item) : List String := items.filterMap fun
  | .decl n (.base _) => some n
  | _ => none

theorem copies_scalars (items : List Item) : (scalarCopies items).map Prod.fst = scalars items := by
  simp only [scalarCopies, getScalars, scalarDecls, scalars, List.map_map]
  induction items with
  | nil => rfl
  | cons i items ih =>
    cases i with
    | other => simpa using ih
    | decl n t => cases t <;> simp_all

theorem const_names (indexType : List String) (b : Bool) (consts : List String) : (buildConsts indexType b consts).map Decl.name = consts := by
  have : ∀ i, (buildConstsFrom indexType b i consts).map Decl.name = consts := by
    induction consts with
    | nil => intro i; rfl
    | cons k ks ih => intro i; simp [buildConstsFrom, ih]
  exact this 2

/-- The loop nest uses no other scalars. -/
structure Uses (nest : (String → V) → A → (String → V) × A) (names : List String) : Prop where
  reads : ∀ f g a, (∀ s ∈ names, f s = g s) → (nest f a).2 = (nest g a).2 ∧ ∀ s ∈ names, (nest f a).1 s = (nest g a).1 s
  writes : ∀ f a s, s ∉ names → (nest f a).1 s = f s

/-- C111: scalars of the main program and arrays are after a call what the loop nest makes of them, whatever the static variables were
before. Names of variables differ, and none is that of a scalar followed by an underscore. -/
theorem C111_call_partial (nest : (String → V) → A → (String → V) × A) (items : List Item) (indexType consts : List String) (st : State V A)
    (hu : Uses nest (scalars items)) (hn : ((mainDecls items indexType consts).map Decl.name).Nodup)
    (hs : ∀ s ∈ scalars items, ∀ d ∈ mainDecls items indexType consts, d.name ≠ s ++ "_") :
    ∃ st', call nest items indexType consts st = some st' ∧ st'.arrays = (nest st.main st.arrays).2 ∧
      ∀ s, st'.main s = (nest st.main st.arrays).1 s := by
  have hsc := copies_scalars items
  have hsd : (scalarDecls items).map Prod.fst = scalars items := by
    rw [← hsc]
    simp [scalarCopies, getScalars, Function.comp_def]
  have hsm : (scalarInits items).map Decl.name = scalars items := by
    rw [← hsc]
    simp [scalarInits, scalarCopies, getScalars, Function.comp_def]
  have ha : (buildArrays items false).map Decl.name = (buildArrays items true).map Decl.name := by
    simp [buildArrays, Function.comp_def]
  have hc : (buildConsts indexType false consts).map Decl.name = (buildConsts indexType true consts).map Decl.name := by
    rw [const_names, const_names]
  have hp := C53_names items indexType consts hn fun s hs' d hd => hs s.1 (by rw [← hsd]; exact List.mem_map.2 ⟨s, hs', rfl⟩) d hd
  have hnd : ((kernelParams items indexType consts).map Decl.name ++ (scalarCopies items).map Prod.fst).Nodup := by
    rw [hsc]
    unfold mainDecls at hn
    rw [List.map_append, List.map_append, hsm] at hn
    refine List.nodup_append.2 ⟨hp, (List.nodup_append.1 hn).2.1, ?_⟩
    intro x hx y hy hxy
    subst hxy
    unfold kernelParams at hx
    rw [List.map_append, List.map_append, List.mem_append, List.mem_append, ha, hc, (C53_scalars items).1.symm] at hx
    rcases hx with (hx | hx) | hx
    · exact (List.nodup_append.1 hn).2.2 x (by simp only [List.mem_append]; exact .inr hx) x hy rfl
    · obtain ⟨c, hc', rfl⟩ := List.mem_map.1 hx
      have h1 : c.2 = c.1 ++ "_" := by
        unfold scalarCopies at hc'
        obtain ⟨d, -, rfl⟩ := List.mem_map.1 hc'
        rfl
      have h2 : c.1 ∈ scalars items := by rw [← hsc]; exact List.mem_map.2 ⟨c, hc', rfl⟩
      rw [← hsm] at hy
      obtain ⟨d, hd, he⟩ := List.mem_map.1 hy
      exact hs c.1 h2 d (by simp [mainDecls, hd]) (he.trans h1)
    · exact (List.nodup_append.1 hn).2.2 x (by simp only [List.mem_append]; exact .inl hx) x hy rfl
  have henv := env_scalar items indexType consts hp
  unfold call
  simp only
  rw [if_pos hnd]
  unfold kernelBody
  obtain ⟨s1, e1, m1, a1, v1⟩ := foldl_from nest _ (scalarCopies items) st henv
  obtain ⟨s2, e2, m2, a2, v2⟩ := foldl_to nest (((kernelParams items indexType consts).map Decl.name).zip (kernelCall items indexType consts))
    (scalarCopies items) { s1 with statics := (nest s1.statics s1.arrays).1, arrays := (nest s1.statics s1.arrays).2 } henv
  have hr := hu.reads s1.statics st.main s1.arrays fun s hs => by rw [v1, hsc, if_pos hs]
  refine ⟨s2, ?_, ?_, fun s => ?_⟩
  · rw [List.foldlM_append, List.foldlM_append, e1]
    simp only [Option.bind_eq_bind, Option.bind_some, List.foldlM_cons, List.foldlM_nil, step]
    exact e2
  · rw [a2, ← a1]
    exact hr.1
  · rw [v2, hsc]
    split
    · next h => rw [← a1]; exact hr.2 s h
    · next h => rw [hu.writes _ _ _ h]; simp only [m1]

/-- C111: the function can be called exactly if no variable has the name of a scalar followed by an underscore. -/
theorem C111_call_iff (nest : (String → V) → A → (String → V) × A) (items : List Item) (indexType consts : List String) (st : State V A)
    (hu : Uses nest (scalars items)) (hn : ((mainDecls items indexType consts).map Decl.name).Nodup) :
    (∃ st', call nest items indexType consts st = some st') ↔
      ∀ s ∈ scalars items, ∀ d ∈ mainDecls items indexType consts, d.name ≠ s ++ "_" := by
  refine ⟨?_, fun hs => ?_⟩
  · rintro ⟨st', h⟩ s hs d hd he
    have hsc := copies_scalars items
    have hsm : (scalarInits items).map Decl.name = scalars items := by
      rw [← hsc]
      simp [scalarInits, scalarCopies, getScalars, Function.comp_def]
    have ha : (buildArrays items false).map Decl.name = (buildArrays items true).map Decl.name := by
      simp [buildArrays, Function.comp_def]
    have hc : (buildConsts indexType false consts).map Decl.name = (buildConsts indexType true consts).map Decl.name := by
      rw [const_names, const_names]
    have hp : s ++ "_" ∈ (getScalars items true "_").map Decl.name := by
      rw [← hsc] at hs
      obtain ⟨c, hc', rfl⟩ := List.mem_map.1 hs
      rw [← (C53_scalars items).1]
      refine List.mem_map.2 ⟨c, hc', ?_⟩
      unfold scalarCopies at hc'
      obtain ⟨d, -, rfl⟩ := List.mem_map.1 hc'
      rfl
    unfold call at h
    simp only at h
    split at h
    · rename_i hnd
      unfold kernelParams at hnd
      rw [hsc, List.map_append, List.map_append, ha, hc, List.nodup_append, List.nodup_append, List.nodup_append] at hnd
      obtain ⟨⟨⟨-, -, n1⟩, -, n2⟩, -, n3⟩ := hnd
      have hm : d.name ∈ (mainDecls items indexType consts).map Decl.name := List.mem_map.2 ⟨d, hd, rfl⟩
      rw [he] at hm
      unfold mainDecls at hm
      rw [List.map_append, List.map_append, hsm, List.mem_append, List.mem_append] at hm
      rcases hm with (hm | hm) | hm
      · exact n2 _ (List.mem_append.2 (.inr hp)) _ hm rfl
      · exact n1 _ hm _ hp rfl
      · exact n3 _ (List.mem_append.2 (.inl (List.mem_append.2 (.inr hp)))) _ hm rfl
    · simp at h
  · obtain ⟨st', h, -⟩ := C111_call_partial nest items indexType consts st hu hn hs
    exact ⟨st', h⟩

/-- `s += a[i]` for all elements of an array; `t` is another scalar. -/
def sumNest (f : String → Int) (a : List Int) : (String → Int) × List Int := (fun x => if x = "s" then f "s" + a.sum else f x, a)

def sumItems : List Item := [.decl "a" (.arr (.var "N") (.base "double")), .decl "s" (.base "double"), .decl "t" (.base "double")]

example : ∃ st', call sumNest sumItems ["int"] ["N"] ⟨fun _ => 5, fun _ => 99, [1, 2]⟩ = some st' ∧ st'.main "s" = 8 ∧ st'.main "t" = 5 := by
  obtain ⟨st', h1, -, h2⟩ := C111_call_partial sumNest sumItems ["int"] ["N"] ⟨fun _ => 5, fun _ => 99, [1, 2]⟩
    ⟨fun f g a h => ⟨rfl, fun s hs => by
      simp only [sumNest]
      rw [h s hs, h "s" (by decide)]⟩, fun f a s hs => by
      have : s ≠ "s" := by
        rintro rfl
        exact hs (by decide)
      simp [sumNest, this]⟩ (by decide +kernel) (by decide +kernel)
  exact ⟨st', h1, by rw [h2]; rfl, by rw [h2]; rfl⟩

/-- With scalars `s` and `s_` a name is declared twice in the function, although not in the kernel. -/
theorem C111_negation_names {V A : Type} (nest : (String → V) → A → (String → V) × A) (st : State V A) :
    ((mainDecls [.decl "s" (.base "double"), .decl "s_" (.base "double")] ["int"] []).map Decl.name).Nodup ∧
    call nest [.decl "s" (.base "double"), .decl "s_" (.base "double")] ["int"] [] st = none := by
  constructor
  · decide +kernel
  · unfold call
    simp only
    rw [if_neg (by decide +kernel)]

end Verif.KernelFn
