import Mathlib.Tactic.Linarith
import Mathlib.Tactic.Ring
import Mathlib.Tactic.IntervalCases
import Verif.Model.Applicable
import Verif.Lemmas.Split

namespace Verif.Applicable

open Verif.Split Verif.Spec

/-! ### Collected sums -/

theorem mem_addTerm (t v : Term) (p : Poly) (h : v ∈ addTerm t p) : v.2 = t.2 ∨ ∃ u ∈ p, u.2 = v.2 := by
  induction p with
  | nil =>
    unfold addTerm at h
    split at h
    · cases h
    · simp at h; exact Or.inl (by rw [h])
  | cons u p ih =>
    unfold addTerm at h
    split at h
    · split at h
      · exact Or.inr ⟨v, by simp [h], rfl⟩
      · rw [List.mem_cons] at h
        rcases h with rfl | h
        · exact Or.inr ⟨u, by simp, rfl⟩
        · exact Or.inr ⟨v, by simp [h], rfl⟩
    · rw [List.mem_cons] at h
      rcases h with rfl | h
      · exact Or.inr ⟨v, by simp, rfl⟩
      · rcases ih h with h | ⟨w, hw, h⟩
        · exact Or.inl h
        · exact Or.inr ⟨w, by simp [hw], h⟩

/-- Like terms are collected. -/
def Distinct (p : Poly) : Prop := p.Pairwise fun a b => a.2 ≠ b.2

theorem distinct_addTerm (t : Term) (p : Poly) (h : Distinct p) : Distinct (addTerm t p) := by
  unfold Distinct at *
  induction p with
  | nil => unfold addTerm; split <;> simp
  | cons u p ih =>
    rw [List.pairwise_cons] at h
    unfold addTerm
    split
    · split
      · exact h.2
      · rw [List.pairwise_cons]
        exact ⟨h.1, h.2⟩
    · rename_i hne
      rw [List.pairwise_cons]
      refine ⟨fun v hv => ?_, ih h.2⟩
      rcases mem_addTerm t v p hv with e | ⟨w, hw, e⟩
      · rw [e]; exact fun h => hne h.symm
      · rw [← e]; exact h.1 w hw

theorem collect_spec (p acc : Poly) (h : Distinct acc) :
    Distinct (p.foldl (fun acc t => addTerm t acc) acc) ∧
    ∀ v ∈ p.foldl (fun acc t => addTerm t acc) acc, ∃ u ∈ acc ++ p, u.2 = v.2 := by
  induction p generalizing acc with
  | nil => exact ⟨h, fun v hv => ⟨v, by simpa using hv, rfl⟩⟩
  | cons t p ih =>
    obtain ⟨h1, h2⟩ := ih (addTerm t acc) (distinct_addTerm t acc h)
    refine ⟨h1, fun v hv => ?_⟩
    obtain ⟨u, hu, e⟩ := h2 v hv
    rw [List.mem_append] at hu
    rcases hu with hu | hu
    · rcases mem_addTerm t u acc hu with e' | ⟨w, hw, e'⟩
      · exact ⟨t, by simp, e' ▸ e⟩
      · exact ⟨w, by simp [hw], e'.trans e⟩
    · exact ⟨u, by simp [hu], e⟩

theorem mem_factors (dims : List Term) (c : String) (h : ∀ d ∈ dims, c ∉ d.2) : ∀ f ∈ factors dims, c ∉ f.2 := by
  have hfold : ∀ (ds : List Term) (t : Term), c ∉ t.2 → (∀ d ∈ ds, c ∉ d.2) → c ∉ (ds.foldl mulT t).2 := by
    intro ds
    induction ds with
    | nil => intro t ht _; exact ht
    | cons d ds ih =>
      intro t ht hd
      rw [List.foldl_cons]
      refine ih _ ?_ fun e he => hd e (by simp [he])
      simp only [mulT, Multiset.mem_add]
      rintro (h | h)
      · exact ht h
      · exact hd d (by simp) h
  induction dims with
  | nil => simp [factors]
  | cons d ds ih =>
    intro f hf
    rw [factors, List.mem_cons] at hf
    rcases hf with rfl | hf
    · exact hfold ds one (by simp [one]) fun e he => h e (by simp [he])
    · exact ih (fun e he => h e (by simp [he])) f hf

/-! ### Steps of the inner counter -/

theorem termValue_upd (σ : String → Int) (c : String) (v : Int) (t : Term) (h : c ∉ t.2) :
    termValue (upd σ c v) t = termValue σ t := by
  unfold termValue
  congr 2
  refine Multiset.map_congr rfl fun x hx => ?_
  unfold upd
  rw [if_neg]
  rintro rfl
  exact h hx

theorem sumValue_step (σ : String → Int) (c : String) (v : Int) (p : Poly) (hd : Distinct p)
    (h : ∀ t ∈ p, c ∈ t.2 → t = (1, {c})) :
    sumValue (upd σ c (v + 1)) p - sumValue (upd σ c v) p = if (1, {c}) ∈ p then 1 else 0 := by
  induction p with
  | nil => simp [sumValue]
  | cons t p ih =>
    rw [Distinct, List.pairwise_cons] at hd
    have ih := ih hd.2 fun u hu => h u (by simp [hu])
    rw [sumValue_cons, sumValue_cons]
    by_cases hc : c ∈ t.2
    · have e := h t (by simp) hc
      have hn : (1, {c}) ∉ p := by
        intro hm
        exact hd.1 _ hm (by rw [e])
      rw [if_neg hn] at ih
      rw [if_pos (by simp [e]), e]
      have e1 : ∀ w, termValue (upd σ c w) (1, {c}) = w := by intro w; simp [termValue, upd]
      rw [e1, e1]
      omega
    · rw [termValue_upd _ _ _ _ hc, termValue_upd _ _ _ _ hc]
      have hne : (1, {c}) ≠ t := by rintro rfl; simp at hc
      have : ((1, {c}) ∈ t :: p) ↔ ((1, {c}) ∈ p) := by simp [hne]
      simp only [this]
      omega

/-- Replacing the counter in a term is giving it that value. -/
theorem termValue_substT (σ : String → Int) (c : String) (v : Int) (t : Term) :
    termValue σ (substT c v t) = termValue (upd σ c v) t := by
  obtain ⟨a, m⟩ := t
  simp only [termValue, substT]
  rw [mul_assoc]
  congr 1
  induction m using Multiset.induction_on with
  | empty => simp
  | cons x m ih =>
    by_cases hx : x = c
    · subst hx
      rw [Multiset.count_cons_self, Multiset.filter_cons_of_neg (p := fun y => y ≠ x) _ (by simp), Multiset.map_cons, Multiset.prod_cons, ← ih]
      simp only [upd, if_true]
      ring
    · rw [Multiset.count_cons_of_ne (Ne.symm hx), Multiset.filter_cons_of_pos (p := fun y => y ≠ c) _ hx, Multiset.map_cons, Multiset.prod_cons,
        Multiset.map_cons, Multiset.prod_cons, ← ih]
      simp only [upd, hx, if_false]
      ring

/-- Value of the difference that is checked. -/
theorem sumValue_difference (σ : String → Int) (c : String) (inc : Int) (p : Poly) :
    sumValue σ (difference c inc p) = sumValue (upd σ c (1 + inc)) p - sumValue (upd σ c 1) p := by
  unfold difference
  rw [sumValue_collect]
  unfold sumValue
  rw [List.map_append, List.sum_append, List.map_map, List.map_map]
  have h1 : (p.map (termValue σ ∘ substT c (1 + inc))) = p.map (termValue (upd σ c (1 + inc))) :=
    List.map_congr_left fun t _ => termValue_substT σ c _ t
  have h2 : ∀ q : Poly, (q.map (termValue σ ∘ fun t => mulT (-1, 0) (substT c 1 t))).sum =
      -(q.map (termValue (upd σ c 1))).sum := by
    intro q
    induction q with
    | nil => simp
    | cons t q ih =>
      rw [List.map_cons, List.sum_cons, ih, List.map_cons, List.sum_cons, ← termValue_substT]
      simp only [Function.comp, termValue, mulT, zero_add]
      ring
  rw [h1, h2]
  ring

/-- The step of a sum that is linear in the counter is the same everywhere. -/
theorem sumValue_linear (σ : String → Int) (c : String) (v w : Int) (p : Poly) (h : ∀ t ∈ p, t.2.count c ≤ 1) :
    sumValue (upd σ c (v + 1)) p - sumValue (upd σ c v) p = sumValue (upd σ c (w + 1)) p - sumValue (upd σ c w) p := by
  unfold sumValue
  induction p with
  | nil => simp
  | cons t p ih =>
    have ih := ih fun u hu => h u (by simp [hu])
    have ht : termValue (upd σ c (v + 1)) t - termValue (upd σ c v) t =
        termValue (upd σ c (w + 1)) t - termValue (upd σ c w) t := by
      have e : ∀ x, termValue (upd σ c x) t = t.1 * x ^ t.2.count c * ((t.2.filter (· ≠ c)).map σ).prod :=
        fun x => (termValue_substT σ c x t).symm
      rw [e, e, e, e]
      have := h t (by simp)
      generalize t.2.count c = k at this
      interval_cases k <;> ring
    simp only [List.map_cons, List.sum_cons]
    linarith

theorem position_expand (σ : String → Int) (r : Ref) (hl : r.subs.length = r.dims.length) :
    cIndex (r.dims.map (termValue σ)) (r.subs.map (sumValue σ)) = sumValue σ (expand (factors r.dims) r.subs) := by
  rw [← total_factors σ r.dims r.subs hl, expand, sumValue_collect, total_flatMap]

theorem getLast_reverse {α : Type} (l : List α) : l.reverse[0]? = l.getLast? := by
  rw [List.getLast?_eq_head?_reverse, List.head?_eq_getElem?]

/-- Terms with the inner counter are the counter itself, if they are linear. -/
theorem checkTerm_inner (loops : List Loop) (l : Loop) (hl : loops.getLast? = some l)
    (hnd : (loops.map (·.index)).Nodup) (t : Term) (hc : checkTerm loops t = true) (hm : l.index ∈ t.2)
    (hlin : t.2.count l.index ≤ 1) : t = (1, {l.index}) := by
  have hmem : l.index ∈ countersIn loops t := by
    unfold countersIn
    rw [List.mem_filter]
    refine ⟨?_, by simpa using hm⟩
    rw [List.mem_dedup, List.mem_map]
    exact ⟨l, List.mem_of_getLast? hl, rfl⟩
  unfold checkTerm at hc
  split at hc
  · rename_i h; rw [h] at hmem; cases hmem
  · rename_i c h
    rw [h, List.mem_singleton] at hmem
    subst hmem
    generalize hk : multiplications t l.index = k at hc
    have h0 : k = 0 := by
      cases hg : loops.reverse[k]? with
      | none => rw [hg] at hc; simp at hc
      | some l' =>
        rw [hg] at hc
        simp at hc
        have h1 : (loops.reverse.map (·.index))[k]? = some l.index := by rw [List.getElem?_map, hg]; simp [hc]
        have h2 : (loops.reverse.map (·.index))[0]? = some l.index := by
          rw [List.getElem?_map, getLast_reverse, hl]; rfl
        have hnd' : (loops.reverse.map (·.index)).Nodup := by
          rw [List.map_reverse]; exact List.nodup_reverse.2 hnd
        have hlt : k < (loops.reverse.map (·.index)).length := by
          by_contra hh
          rw [List.getElem?_eq_none (by omega)] at h1
          cases h1
        exact (List.getElem?_inj hlt hnd').1 (h1.trans h2.symm)
    rw [h0] at hk
    unfold multiplications at hk
    have h1 : t.1 = 1 := by
      by_contra hh
      rw [if_neg hh] at hk
      omega
    have h2 : t.2.filter (· ≠ l.index) = 0 := by
      rw [← Multiset.card_eq_zero]
      omega
    have h3 : t.2 = Multiset.replicate (Multiset.card t.2) l.index := by
      rw [Multiset.eq_replicate_card]
      intro x hx
      by_contra hne
      have : x ∈ t.2.filter (· ≠ l.index) := Multiset.mem_filter.2 ⟨hx, hne⟩
      rw [h2] at this
      simp at this
    have h4 : Multiset.card t.2 = 1 := by
      rw [h3, Multiset.count_replicate_self] at hlin
      have : 0 < Multiset.card t.2 := Multiset.card_pos_iff_exists_mem.2 ⟨_, hm⟩
      omega
    rw [h4, Multiset.replicate_one] at h3
    exact Prod.ext h1 h3
  · cases hc

theorem count_expand (r : Ref) (c : String) (hd : ∀ d ∈ r.dims, c ∉ d.2)
    (hs : ∀ p ∈ r.subs, ∀ t ∈ p, t.2.count c ≤ 1) : ∀ t ∈ expand (factors r.dims) r.subs, t.2.count c ≤ 1 := by
  intro t ht
  obtain ⟨u, hu, e⟩ := (collect_spec _ [] List.Pairwise.nil).2 t ht
  rw [List.nil_append, List.mem_flatMap] at hu
  obtain ⟨x, hx, hu⟩ := hu
  rw [List.mem_map] at hu
  obtain ⟨w, hw, rfl⟩ := hu
  rw [← e]
  simp only [mulT, Multiset.count_add]
  rw [Multiset.count_eq_zero_of_notMem (mem_factors r.dims c hd x.1 (List.of_mem_zip hx).1), zero_add]
  exact hs x.2 (List.of_mem_zip hx).2 w hw

theorem distinct_expand (fs : List Term) (subs : List Poly) : Distinct (expand fs subs) :=
  (collect_spec _ [] List.Pairwise.nil).1

/-! ### Stencils -/

theorem collect_numbers (as : List Int) (a : Int) :
    (as.map fun x => ((x, 0) : Term)).foldl (fun acc t => addTerm t acc) (if a = 0 then [] else [(a, 0)]) =
      if a + as.sum = 0 then [] else [(a + as.sum, 0)] := by
  induction as generalizing a with
  | nil => simp
  | cons x as ih =>
    rw [List.map_cons, List.foldl_cons, List.sum_cons, ← add_assoc, ← ih (a + x)]
    congr 1
    by_cases h : a = 0
    · subst h
      simp only [if_true, addTerm, zero_add]
    · rw [if_neg h]
      simp only [addTerm, if_true]

theorem difference_counterPlus (c : String) (x : Option String × Int) :
    difference c 1 (counterPlus x.1 x.2) = [] ∨ difference c 1 (counterPlus x.1 x.2) = [one] := by
  obtain ⟨o, l⟩ := x
  unfold difference collect
  cases o with
  | none =>
    left
    have := collect_numbers (if l = 0 then [] else [l, -l]) 0
    by_cases h0 : l = 0
    · simp [counterPlus, h0]
    · simp only [h0, if_false] at this
      simp [counterPlus, h0, substT, mulT] at this ⊢
      exact this
  | some d =>
    by_cases hd : d = c
    · subst hd
      right
      have hf : Multiset.filter (fun x => ¬x = d) {d} = 0 := by rw [Multiset.filter_eq_nil]; simp
      have := collect_numbers (if l = 0 then [2, -1] else [2, l, -1, -l]) 0
      by_cases h0 : l = 0
      · simp only [h0, if_true] at this
        simp [counterPlus, h0, substT, mulT, one, hf] at this ⊢
        exact this
      · simp only [h0, if_false] at this
        have e : (0 : Int) + [2, l, -1, -l].sum = 1 := by simp only [List.sum_cons, List.sum_nil]; omega
        rw [e] at this
        simp [counterPlus, h0, substT, mulT, one, hf] at this ⊢
        exact this
    · left
      have hf : Multiset.filter (fun x => ¬x = c) {d} = {d} := by rw [Multiset.filter_eq_self]; simp [hd]
      have hcount : Multiset.count c {d} = 0 := by simp [Ne.symm hd]
      by_cases h0 : l = 0
      · simp [counterPlus, h0, substT, mulT, hf, hcount, addTerm]
      · simp [counterPlus, h0, substT, mulT, hf, hcount, addTerm]

theorem checkTerm_simple (loops : List Loop) (ns : List String) (hns : ∀ n ∈ ns, n ∉ loops.map (·.index))
    (u : Term) (hu : u.2 = 0 ∨ (u.1 = 1 ∧ ∃ c, u.2 = {c} ∧ (loops.reverse[ns.length]?).map (·.index) = some c)) :
    checkTerm loops (mulT (1, (ns : Multiset String)) u) = true := by
  rcases hu with hu | ⟨h1, c, h2, h3⟩
  · have : countersIn loops (mulT (1, (ns : Multiset String)) u) = [] := by
      unfold countersIn
      rw [List.filter_eq_nil_iff]
      intro a ha
      rw [List.mem_dedup] at ha
      simp only [mulT, hu, add_zero, Multiset.mem_coe, decide_eq_true_eq]
      exact fun h => hns a h ha
    unfold checkTerm
    rw [this]
  · have hcm : c ∈ loops.map (·.index) := by
      rw [Option.map_eq_some_iff] at h3
      obtain ⟨l, hl, rfl⟩ := h3
      exact List.mem_map_of_mem (List.mem_reverse.1 (List.mem_of_getElem? hl))
    have hcn : c ∉ ns := fun h => hns c h hcm
    have : countersIn loops (mulT (1, (ns : Multiset String)) u) = [c] := by
      unfold countersIn
      have e : ∀ a ∈ (loops.map (·.index)).dedup, decide (a ∈ (mulT (1, (ns : Multiset String)) u).2) = decide (a = c) := by
        intro a ha
        rw [List.mem_dedup] at ha
        simp only [mulT, h2, Multiset.mem_add, Multiset.mem_coe, Multiset.mem_singleton]
        congr 1
        exact propext ⟨fun h => h.resolve_left fun h => hns a h ha, Or.inr⟩
      rw [List.filter_congr e]
      have hnd := List.nodup_dedup (loops.map (·.index))
      have hm : c ∈ (loops.map (·.index)).dedup := List.mem_dedup.2 hcm
      generalize (loops.map (·.index)).dedup = l at hnd hm
      clear e
      induction l with
      | nil => cases hm
      | cons a l ih =>
        rw [List.nodup_cons] at hnd
        rw [List.filter_cons]
        by_cases hac : a = c
        · subst hac
          simp only [decide_true, if_true]
          rw [List.filter_eq_nil_iff.2]
          intro b hb
          simp only [decide_eq_true_eq]
          rintro rfl
          exact hnd.1 hb
        · simp only [hac, decide_false, Bool.false_eq_true, if_false]
          exact ih hnd.2 ((List.mem_cons.1 hm).resolve_left fun h => hac h.symm)
    unfold checkTerm
    rw [this]
    have hm : multiplications (mulT (1, (ns : Multiset String)) u) c = ns.length := by
      unfold multiplications
      simp only [mulT, one_mul, h1, if_true, h2, Multiset.filter_add]
      rw [Multiset.filter_eq_self.2, Multiset.filter_eq_nil.2]
      · simp
      · simp
      · intro a ha
        rintro rfl
        exact hcn (by simpa using ha)
    simp only [hm]
    rw [Option.map_eq_some_iff] at h3
    obtain ⟨l, hl, rfl⟩ := h3
    simp [hl]

theorem checkTerm_all (loops : List Loop) (names : List String) (hn : ∀ n ∈ names, n ∉ loops.map (·.index))
    (ls : List (Option String × Int)) (hlen : ls.length = names.length)
    (hc : ∀ d x, ls[d]? = some x → ∀ c, x.1 = some c → (loops.reverse[names.length - 1 - d]?).map (·.index) = some c) :
    ∀ t ∈ allTerms names ls, checkTerm loops t = true := by
  induction names generalizing ls with
  | nil => simp [allTerms, facs]
  | cons n ns ih =>
    cases ls with
    | nil => simp at hlen
    | cons x xs =>
      intro t ht
      rw [allTerms_cons, List.mem_append, List.mem_map] at ht
      rcases ht with ⟨u, hu, rfl⟩ | ht
      · refine checkTerm_simple loops ns (fun m hm => hn m (by simp [hm])) u ?_
        have h0 := hc 0 x rfl
        simp only [List.length_cons, Nat.add_sub_cancel, Nat.sub_zero] at h0
        obtain ⟨o, l⟩ := x
        cases o with
        | none =>
          by_cases hl : l = 0
          · simp [counterPlus, hl] at hu
          · simp [counterPlus, hl] at hu
            exact Or.inl (by rw [hu])
        | some c =>
          rw [counterPlus, List.mem_cons] at hu
          rcases hu with rfl | hu
          · exact Or.inr ⟨rfl, c, rfl, h0 c rfl⟩
          · by_cases hl : l = 0
            · simp [hl] at hu
            · simp [hl] at hu
              exact Or.inl (by rw [hu])
      · refine ih (fun m hm => hn m (by simp [hm])) xs (by simpa using hlen) (fun d y hy c hyc => ?_) t ht
        have := hc (d + 1) y (by simpa using hy) c hyc
        simp only [List.length_cons] at this
        rw [← this]
        congr 2
        omega

end Verif.Applicable
