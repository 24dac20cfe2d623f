import Verif.Model.KernelFn
import Verif.Props.CodeGen

/-!
Lemmas on the execution of the kernel function.
-/

namespace Verif.KernelFn

open Verif.CodeGen

variable {V A : Type}

theorem lookup_append_none {B : Type} (a b : List (String × B)) (p : String) (h : p ∉ a.map Prod.fst) : (a ++ b).lookup p = b.lookup p := by
  induction a with
  | nil => rfl
  | cons x a ih =>
    simp only [List.map_cons, List.mem_cons, not_or] at h
    rw [List.cons_append, List.lookup_cons, beq_false_of_ne h.1]
    exact ih h.2

theorem lookup_map (l : List (String × String)) (hn : (l.map Prod.snd).Nodup) (c : String × String) (hc : c ∈ l) (rest : List (String × Arg)) :
    ((l.map fun c => (c.2, Arg.addr c.1)) ++ rest).lookup c.2 = some (.addr c.1) := by
  induction l with
  | nil => simp at hc
  | cons x l ih =>
    simp only [List.map_cons, List.nodup_cons] at hn
    rw [List.map_cons, List.cons_append, List.lookup_cons]
    rcases List.mem_cons.1 hc with rfl | hm
    · simp
    · have : c.2 ≠ x.2 := by
        intro h
        exact hn.1 (h ▸ List.mem_map.2 ⟨c, hm, rfl⟩)
      rw [beq_false_of_ne this]
      exact ih hn.2 hm

/-- Every pointer of a scalar has its address. -/
theorem env_scalar (items : List Item) (indexType consts : List String) (hn : ((kernelParams items indexType consts).map Decl.name).Nodup)
    (c : String × String) (hc : c ∈ scalarCopies items) :
    (((kernelParams items indexType consts).map Decl.name).zip (kernelCall items indexType consts)).lookup c.2 = some (.addr c.1) := by
  have hlen : ((buildArrays items false).map Decl.name).length = ((buildArrays items true).map fun d => Arg.id d.name).length := by
    simp [buildArrays]
  have hz : (((kernelParams items indexType consts).map Decl.name).zip (kernelCall items indexType consts)) =
      ((buildArrays items false).map Decl.name).zip ((buildArrays items true).map fun d => Arg.id d.name) ++
      (((scalarCopies items).map fun c => (c.2, Arg.addr c.1)) ++
      ((buildConsts indexType false consts).map Decl.name).zip ((buildConsts indexType true consts).map fun d => Arg.id d.name)) := by
    unfold kernelParams kernelCall
    rw [List.map_append, List.map_append, List.append_assoc, List.append_assoc, List.zip_append hlen, List.zip_append (by simp [getScalars])]
    congr 2
    simp only [scalarCopies, getScalars, List.map_map]
    rw [List.zip_map']
    apply List.map_congr_left
    intro d _
    simp
  unfold kernelParams at hn
  rw [List.map_append, List.map_append] at hn
  have hs : (getScalars items true "_").map Decl.name = (scalarCopies items).map Prod.snd := (C53_scalars items).1.symm
  rw [hz, lookup_append_none, lookup_map]
  · rw [hs] at hn
    exact (List.nodup_append.1 (List.nodup_append.1 hn).1).2.1
  · exact hc
  · intro hm
    obtain ⟨⟨x, y⟩, hxy, rfl⟩ := List.mem_map.1 hm
    have hx := (List.of_mem_zip hxy).1
    rw [hs] at hn
    exact (List.nodup_append.1 (List.nodup_append.1 hn).1).2.2 _ hx _ (List.mem_map.2 ⟨c, hc, rfl⟩) rfl

theorem foldl_from (nest : (String → V) → A → (String → V) × A) (env : List (String × Arg)) (cs : List (String × String)) (st : State V A)
    (h : ∀ c ∈ cs, env.lookup c.2 = some (.addr c.1)) :
    ∃ st', (cs.map fun c => Stmt.fromPtr c.1 c.2).foldlM (step nest env) st = some st' ∧ st'.main = st.main ∧ st'.arrays = st.arrays ∧
      ∀ s, st'.statics s = if s ∈ cs.map Prod.fst then st.main s else st.statics s := by
  induction cs generalizing st with
  | nil => exact ⟨st, rfl, rfl, rfl, by simp⟩
  | cons c cs ih =>
    obtain ⟨st', h1, h2, h3, h4⟩ := ih { st with statics := assign st.statics c.1 (st.main c.1) } fun x hx => h x (by simp [hx])
    refine ⟨st', ?_, h2, h3, fun s => ?_⟩
    · rw [List.map_cons, List.foldlM_cons, step, h c (by simp)]
      exact h1
    · rw [h4 s]
      simp only [assign, List.map_cons, List.mem_cons]
      by_cases hs : s = c.1
      · subst hs
        simp
      · by_cases hm : s ∈ cs.map Prod.fst
        · rw [if_pos hm, if_pos (.inr hm)]
        · rw [if_neg hm, if_neg hs, if_neg (by rintro (h | h) <;> contradiction)]

theorem foldl_to (nest : (String → V) → A → (String → V) × A) (env : List (String × Arg)) (cs : List (String × String)) (st : State V A)
    (h : ∀ c ∈ cs, env.lookup c.2 = some (.addr c.1)) :
    ∃ st', (cs.map fun c => Stmt.toPtr c.2 c.1).foldlM (step nest env) st = some st' ∧ st'.statics = st.statics ∧ st'.arrays = st.arrays ∧
      ∀ s, st'.main s = if s ∈ cs.map Prod.fst then st.statics s else st.main s := by
  induction cs generalizing st with
  | nil => exact ⟨st, rfl, rfl, rfl, by simp⟩
  | cons c cs ih =>
    obtain ⟨st', h1, h2, h3, h4⟩ := ih { st with main := assign st.main c.1 (st.statics c.1) } fun x hx => h x (by simp [hx])
    refine ⟨st', ?_, h2, h3, fun s => ?_⟩
    · rw [List.map_cons, List.foldlM_cons, step, h c (by simp)]
      exact h1
    · rw [h4 s]
      simp only [assign, List.map_cons, List.mem_cons]
      by_cases hs : s = c.1
      · subst hs
        simp
      · by_cases hm : s ∈ cs.map Prod.fst
        · rw [if_pos hm, if_pos (.inr hm)]
        · rw [if_neg hm, if_neg hs, if_neg (by rintro (h | h) <;> contradiction)]

end Verif.KernelFn
