import Verif.Model.Split
import Verif.Spec.Terms
import Verif.Spec.Arrays
import Mathlib.Tactic.Ring

namespace Verif.Split

open Verif.Spec

/-! ### Values -/

theorem termValue_mulT (σ : String → Int) (a b : Term) : termValue σ (mulT a b) = termValue σ a * termValue σ b := by
  simp only [termValue, mulT, Multiset.map_add, Multiset.prod_add]
  ring

theorem sumValue_cons (σ : String → Int) (t : Term) (p : Poly) : sumValue σ (t :: p) = termValue σ t + sumValue σ p := by
  simp [sumValue]

theorem sumValue_append (σ : String → Int) (p q : Poly) : sumValue σ (p ++ q) = sumValue σ p + sumValue σ q := by
  simp [sumValue]

theorem sumValue_mul (σ : String → Int) (f : Term) (p : Poly) :
    sumValue σ (p.map (mulT f)) = termValue σ f * sumValue σ p := by
  induction p with
  | nil => simp [sumValue]
  | cons t p ih => rw [List.map_cons, sumValue_cons, sumValue_cons, ih, termValue_mulT]; ring

theorem sumValue_addTerm (σ : String → Int) (t : Term) (p : Poly) :
    sumValue σ (addTerm t p) = sumValue σ p + termValue σ t := by
  induction p with
  | nil =>
    unfold addTerm
    split
    · rename_i h; simp [sumValue, termValue, h]
    · simp [sumValue]
  | cons u p ih =>
    unfold addTerm
    split
    · rename_i h
      split
      · rename_i h0
        rw [sumValue_cons]
        simp only [termValue, h]
        have : t.1 = -u.1 := by omega
        rw [this]; ring
      · rw [sumValue_cons, sumValue_cons]
        simp only [termValue, h]
        ring
    · rw [sumValue_cons, sumValue_cons, ih]; ring

theorem sumValue_collectFrom (σ : String → Int) (p acc : Poly) :
    sumValue σ (p.foldl (fun acc t => addTerm t acc) acc) = sumValue σ acc + sumValue σ p := by
  induction p generalizing acc with
  | nil => simp [sumValue]
  | cons t p ih => rw [List.foldl_cons, ih, sumValue_addTerm, sumValue_cons]; ring

theorem sumValue_collect (σ : String → Int) (p : Poly) : sumValue σ (collect p) = sumValue σ p := by
  rw [collect, sumValue_collectFrom]; simp [sumValue]

/-- Sum of factors times sums. -/
def total (σ : String → Int) (l : List (Term × Poly)) : Int := (l.map fun x => termValue σ x.1 * sumValue σ x.2).sum

theorem total_flatMap (σ : String → Int) (l : List (Term × Poly)) :
    sumValue σ (l.flatMap fun x => x.2.map (mulT x.1)) = total σ l := by
  induction l with
  | nil => rfl
  | cons x l ih =>
    rw [List.flatMap_cons, sumValue_append, ih, sumValue_mul]
    simp [total]

/-- Value of a form. -/
def formValue (σ : String → Int) (f : Form) : Int :=
  (f.terms.map (termValue σ)).sum + (f.products.map fun x => termValue σ x.1 * (x.2.map (termValue σ)).sum).sum

theorem total_filter (σ : String → Int) (b : Term × Poly → Bool) (l : List (Term × Poly)) :
    total σ (l.filter fun x => !b x) + total σ (l.filter b) = total σ l := by
  induction l with
  | nil => rfl
  | cons x l ih =>
    rw [List.filter_cons, List.filter_cons]
    cases b x
    · simp only [total, Bool.not_false, if_true, List.map_cons, List.sum_cons, Bool.false_eq_true, if_false] at ih ⊢
      rw [← ih]; ring
    · simp only [total, Bool.not_true, if_true, List.map_cons, List.sum_cons, Bool.false_eq_true, if_false] at ih ⊢
      rw [← ih]; ring

theorem formValue_form (σ : String → Int) (fs : List Term) (ps : List Poly) :
    formValue σ (form fs ps) = total σ (fs.zip ps) := by
  rw [← total_filter σ (fun x => kept x.1 x.2)]
  unfold formValue form
  congr 1
  · rw [Multiset.map_coe, Multiset.sum_coe]
    change sumValue σ _ = _
    rw [sumValue_collect, total_flatMap]
  · simp only [Multiset.map_coe, Multiset.sum_coe, List.map_map, total]
    rfl

/-! ### Factors -/

theorem length_factors (dims : List Term) : (factors dims).length = dims.length := by
  induction dims with
  | nil => rfl
  | cons d ds ih => simp [factors, ih]

theorem termValue_foldl (σ : String → Int) (t : Term) (ds : List Term) :
    termValue σ (ds.foldl mulT t) = termValue σ t * cElems (ds.map (termValue σ)) := by
  induction ds generalizing t with
  | nil => simp [cElems]
  | cons d ds ih => rw [List.foldl_cons, ih, termValue_mulT, List.map_cons, cElems]; ring

theorem total_factors (σ : String → Int) (dims : List Term) (ps : List Poly) (h : ps.length = dims.length) :
    total σ ((factors dims).zip ps) = cIndex (dims.map (termValue σ)) (ps.map (sumValue σ)) := by
  induction dims generalizing ps with
  | nil =>
    cases ps with
    | nil => rfl
    | cons p ps => simp at h
  | cons d ds ih =>
    cases ps with
    | nil => simp at h
    | cons p ps =>
      have := ih ps (by simpa using h)
      simp only [total, factors, List.zip_cons_cons, List.map_cons, List.sum_cons, cIndex] at this ⊢
      rw [this, termValue_foldl]
      simp only [termValue, one, Multiset.map_zero, Multiset.prod_zero]
      ring

theorem length_addTo (t : Term) (fs : List Term) (cs : List Poly) : (addTo t fs cs).length = cs.length := by
  induction fs generalizing cs with
  | nil => cases cs <;> rfl
  | cons f fs ih =>
    cases cs with
    | nil => rfl
    | cons c cs =>
      unfold addTo
      split
      · simp
      · simp [ih]

theorem length_coefficients (fs : List Term) (terms : Poly) : (coefficients fs terms).length = fs.length := by
  unfold coefficients
  have : ∀ cs : List Poly, (terms.foldl (fun cs t => addTo t fs cs) cs).length = cs.length := by
    induction terms with
    | nil => intro cs; rfl
    | cons t ts ih => intro cs; rw [List.foldl_cons, ih, length_addTo]
  rw [this]; simp

/-! ### Symbolic extents -/

theorem foldl_symbols (ns : List String) (t : Term) :
    (ns.map symbol).foldl mulT t = (t.1, t.2 + (ns : Multiset String)) := by
  induction ns generalizing t with
  | nil => simp
  | cons n ns ih =>
    rw [List.map_cons, List.foldl_cons, ih]
    simp only [mulT, symbol, mul_one, add_assoc]
    rfl

/-- The factors of symbolic extents. -/
def facs : List String → List Term
  | [] => []
  | _ :: ns => (1, (ns : Multiset String)) :: facs ns

theorem factors_symbols (ns : List String) : factors (ns.map symbol) = facs ns := by
  induction ns with
  | nil => rfl
  | cons n ns ih =>
    rw [List.map_cons, factors, ih, foldl_symbols, facs]
    simp [one]

theorem prod_numArgs (c : Int) : (numArgs c).prod = c := by
  unfold numArgs
  split
  · simp [*]
  · split
    · simp [*]
    · split <;> simp

/-- A term of a subscript: a counter that is not an extent, or a literal. -/
def Simple (names : List String) (u : Term) : Prop := u.1 ≠ 0 ∧ (u.2 = 0 ∨ (u.1 = 1 ∧ ∃ c, c ∉ names ∧ u.2 = {c}))

theorem Simple.notMem {names : List String} {u : Term} (h : Simple names u) {n : String} (hn : n ∈ names) : n ∉ u.2 := by
  rcases h.2 with h | ⟨_, c, hc, h⟩
  · simp [h]
  · rw [h, Multiset.mem_singleton]
    rintro rfl
    exact hc hn

theorem Simple.mono {names names' : List String} {u : Term} (h : Simple names u) (hs : ∀ n ∈ names', n ∈ names) :
    Simple names' u := by
  refine ⟨h.1, h.2.imp id ?_⟩
  rintro ⟨h1, c, hc, h2⟩
  exact ⟨h1, c, fun hh => hc (hs c hh), h2⟩

theorem contribution_earlier (q : List String) (n : String) (ns : List String) (u : Term) (h : Simple (n :: ns) u) :
    contribution (mulT (1, (ns : Multiset String)) u) (1, ((q ++ n :: ns : List String) : Multiset String)) = none := by
  have hc : ((q ++ n :: ns : List String) : Multiset String).count n ≠
      ((ns : Multiset String) + u.2).count n := by
    rw [Multiset.count_add, Multiset.count_eq_zero_of_notMem (h.notMem (by simp)), Multiset.coe_count, Multiset.coe_count,
      List.count_append, List.count_cons_self]
    omega
  have hone : ((1, ((q ++ n :: ns : List String) : Multiset String)) : Term) ≠ one := by
    intro hh
    have := congrArg Prod.snd hh
    simp [one] at this
  unfold contribution
  rw [if_neg (by rintro ⟨_, h2⟩; exact hone h2)]
  unfold coeff
  rw [if_neg (by simp), if_neg, if_neg hone, if_neg]
  · rintro ⟨_, h2⟩
    exact hc (h2 n (by simp))
  · intro hh
    have := congrArg Prod.snd hh
    simp only [mulT] at this
    rw [← this] at hc
    exact hc rfl

theorem contribution_own (ns : List String) (u : Term) (h : Simple ns u) :
    contribution (mulT (1, (ns : Multiset String)) u) (1, (ns : Multiset String)) = some u := by
  have hfil : ((ns : Multiset String) + u.2).filter (· ∉ (ns : Multiset String)) = u.2 := by
    rw [Multiset.filter_add, Multiset.filter_eq_nil.2, zero_add, Multiset.filter_eq_self.2]
    · intro a ha hm
      exact h.notMem (by simpa using hm) ha
    · intro a ha hm
      exact hm ha
  unfold contribution
  by_cases hns : ns = []
  · subst hns
    have e : mulT (1, (([] : List String) : Multiset String)) u = u := by simp [mulT]
    have e1 : ((1, (([] : List String) : Multiset String)) : Term) = one := by simp [one]
    rw [e, e1]
    split
    · rfl
    · rename_i hh
      rcases h.2 with h0 | ⟨h1, c, _, h2⟩
      · exact absurd ⟨h0, rfl⟩ hh
      · unfold coeff
        rw [if_neg (by simp [one])]
        split
        · rename_i h3; rw [h3]
        · rw [if_pos rfl]
  · have hone : ((1, (ns : Multiset String)) : Term) ≠ one := by
      intro hh
      have := congrArg Prod.snd hh
      simp [one] at this
      exact hns this
    rw [if_neg (by rintro ⟨_, h2⟩; exact hone h2)]
    unfold coeff
    rw [if_neg (by simp)]
    split
    · rename_i hh
      have h1 := congrArg Prod.fst hh
      have h2 := congrArg Prod.snd hh
      simp only [mulT, one_mul] at h1 h2
      have h3 : u.2 = 0 := by simpa using h2
      congr 1
      ext
      · exact h1.symm
      · simp [one, h3]
    · rw [if_pos]
      · simp only [mulT, one_mul]
        congr 1
        ext
        · simp [numArgs]
          exact prod_numArgs u.1
        · rw [hfil]
      · refine ⟨by simp [numArgs], fun s hs => ?_⟩
        simp only [mulT, Multiset.count_add]
        rw [Multiset.count_eq_zero_of_notMem (h.notMem (by simpa using hs)), add_zero]

theorem addTo_at (t u : Term) (fpre : List Term) (f : Term) (fpost : List Term) (a : List Poly) (c : Poly) (b : List Poly)
    (hl : a.length = fpre.length) (hpre : ∀ g ∈ fpre, contribution t g = none) (hf : contribution t f = some u) :
    addTo t (fpre ++ f :: fpost) (a ++ c :: b) = a ++ addTerm u c :: b := by
  induction fpre generalizing a with
  | nil =>
    have : a = [] := List.length_eq_zero_iff.1 hl
    subst this
    simp [addTo, hf]
  | cons g fpre ih =>
    cases a with
    | nil => simp at hl
    | cons x a =>
      simp only [List.cons_append, addTo, hpre g (by simp)]
      rw [ih a (by simpa using hl) fun g hg => hpre g (by simp [hg])]

theorem simple_counterPlus (names : List String) (x : Option String × Int) (hx : ∀ c, x.1 = some c → c ∉ names) :
    ∀ u ∈ counterPlus x.1 x.2, Simple names u := by
  obtain ⟨c, l⟩ := x
  intro u hu
  by_cases h0 : l = 0
  · cases c with
    | none => simp [counterPlus, h0] at hu
    | some c =>
      simp only [counterPlus, h0, if_true, List.mem_singleton] at hu
      subst hu
      exact ⟨by simp, Or.inr ⟨rfl, c, hx c rfl, rfl⟩⟩
  · cases c with
    | none =>
      simp only [counterPlus, h0, if_false, List.mem_singleton] at hu
      subst hu
      exact ⟨h0, Or.inl rfl⟩
    | some c =>
      simp only [counterPlus, h0, if_false, List.mem_cons, List.not_mem_nil, or_false] at hu
      rcases hu with rfl | rfl
      · exact ⟨by simp, Or.inr ⟨rfl, c, hx c rfl, rfl⟩⟩
      · exact ⟨h0, Or.inl rfl⟩

theorem collect_counterPlus (x : Option String × Int) : collect (counterPlus x.1 x.2) = counterPlus x.1 x.2 := by
  obtain ⟨c, l⟩ := x
  by_cases h0 : l = 0
  · cases c <;> simp [counterPlus, h0, collect, addTerm]
  · cases c <;> simp [counterPlus, h0, collect, addTerm]

theorem fold_dimension (q : List (List String)) (n : String) (ns : List String) (post : List Term) (us : Poly)
    (hu : ∀ u ∈ us, Simple (n :: ns) u) (a : List Poly) (c : Poly) (b : List Poly) (hl : a.length = q.length) :
    (us.map (mulT (1, (ns : Multiset String)))).foldl (fun cs t => addTo t
      (q.map (fun q => ((1, ((q ++ n :: ns : List String) : Multiset String)) : Term)) ++ (1, (ns : Multiset String)) :: post) cs)
      (a ++ c :: b) = a ++ (us.foldl (fun acc t => addTerm t acc) c) :: b := by
  induction us generalizing c with
  | nil => rfl
  | cons u us ih =>
    rw [List.map_cons, List.foldl_cons, List.foldl_cons, addTo_at _ u _ _ _ _ _ _ (by simpa using hl),
      ih (fun u h => hu u (by simp [h]))]
    · intro g hg
      rw [List.mem_map] at hg
      obtain ⟨r, _, rfl⟩ := hg
      exact contribution_earlier r n ns u (hu u (by simp))
    · exact contribution_own ns u ((hu u (by simp)).mono (by simp +contextual))

/-- All terms, dimension by dimension. -/
def allTerms (names : List String) (ls : List (Option String × Int)) : Poly :=
  ((facs names).zip (ls.map fun x => counterPlus x.1 x.2)).flatMap fun x => x.2.map (mulT x.1)

theorem fold_all (names : List String) (ls : List (Option String × Int)) (hlen : ls.length = names.length)
    (hc : ∀ x ∈ ls, ∀ c, x.1 = some c → c ∉ names) (q : List (List String)) (a : List Poly) (hl : a.length = q.length) :
    (allTerms names ls).foldl (fun cs t => addTo t
      (q.map (fun q => ((1, ((q ++ names : List String) : Multiset String)) : Term)) ++ facs names) cs)
      (a ++ (facs names).map fun _ => []) = a ++ ls.map fun x => counterPlus x.1 x.2 := by
  induction names generalizing ls q a with
  | nil =>
    have : ls = [] := List.length_eq_zero_iff.1 hlen
    subst this
    rfl
  | cons n ns ih =>
    cases ls with
    | nil => simp at hlen
    | cons x xs =>
      have hsplit : allTerms (n :: ns) (x :: xs) =
          (counterPlus x.1 x.2).map (mulT (1, (ns : Multiset String))) ++ allTerms ns xs := by
        simp [allTerms, facs]
      have hsim := simple_counterPlus (n :: ns) x (hc x (by simp))
      rw [hsplit, List.foldl_append, facs, List.map_cons, fold_dimension q n ns _ _ hsim a _ _ hl]
      have hcol := collect_counterPlus x
      rw [collect] at hcol
      rw [hcol]
      have := ih xs (by simpa using hlen) (fun y hy c h hm => hc y (by simp [hy]) c h (by simp [hm]))
        ((q.map fun q => q ++ [n]) ++ [[]]) (a ++ [counterPlus x.1 x.2]) (by simp [hl])
      simp only [List.map_append, List.map_map, List.map_cons, List.map_nil, Function.comp_def, List.append_assoc,
        List.cons_append, List.nil_append] at this ⊢
      exact this

theorem addTerm_new (t : Term) (p : Poly) (h : ∀ u ∈ p, t.2 ≠ u.2) (h0 : t.1 ≠ 0) : addTerm t p = p ++ [t] := by
  induction p with
  | nil => simp [addTerm, h0]
  | cons u p ih =>
    rw [addTerm, if_neg (h u (by simp)), ih fun v hv => h v (by simp [hv])]
    rfl

theorem collect_nodup (p acc : Poly) (h : (acc ++ p).Pairwise fun a b => a.2 ≠ b.2) (h0 : ∀ t ∈ p, t.1 ≠ 0) :
    p.foldl (fun acc t => addTerm t acc) acc = acc ++ p := by
  induction p generalizing acc with
  | nil => simp
  | cons t p ih =>
    rw [List.foldl_cons, addTerm_new t acc _ (h0 t (by simp)), ih (acc ++ [t]) (by simpa using h) fun u hu => h0 u (by simp [hu])]
    · simp
    · intro u hu
      exact ((List.pairwise_append.1 h).2.2 u hu t (by simp)).symm

/-- Number of extents in a term. -/
def weight (all : List String) (t : Term) : Nat := (t.2.filter (· ∈ all)).card

theorem weight_simple (all ns : List String) (hs : ∀ n ∈ ns, n ∈ all) (u : Term) (h : Simple all u) :
    weight all (mulT (1, (ns : Multiset String)) u) = ns.length := by
  unfold weight mulT
  rw [Multiset.filter_add, Multiset.filter_eq_self.2 (by simpa using hs), Multiset.filter_eq_nil.2]
  · simp
  · intro a ha hm
    exact h.notMem hm ha

theorem allTerms_cons (n : String) (ns : List String) (x : Option String × Int) (xs : List (Option String × Int)) :
    allTerms (n :: ns) (x :: xs) = (counterPlus x.1 x.2).map (mulT (1, (ns : Multiset String))) ++ allTerms ns xs := by
  simp [allTerms, facs]

theorem weight_allTerms (all names : List String) (hs : ∀ n ∈ names, n ∈ all) (ls : List (Option String × Int))
    (hc : ∀ x ∈ ls, ∀ c, x.1 = some c → c ∉ all) :
    ∀ t ∈ allTerms names ls, weight all t < names.length ∧ t.1 ≠ 0 := by
  induction names generalizing ls with
  | nil => simp [allTerms, facs]
  | cons n ns ih =>
    cases ls with
    | nil => simp [allTerms]
    | cons x xs =>
      intro t ht
      rw [allTerms_cons, List.mem_append, List.mem_map] at ht
      rcases ht with ⟨u, hu, rfl⟩ | ht
      · have h := simple_counterPlus all x (hc x (by simp)) u hu
        rw [weight_simple all ns (fun m hm => hs m (by simp [hm])) u h]
        exact ⟨by simp, by simp [mulT, h.1]⟩
      · have := ih (fun m hm => hs m (by simp [hm])) xs (fun y hy => hc y (by simp [hy])) t ht
        exact ⟨by simp only [List.length_cons]; omega, this.2⟩

theorem pairwise_allTerms (all names : List String) (hs : ∀ n ∈ names, n ∈ all) (ls : List (Option String × Int))
    (hc : ∀ x ∈ ls, ∀ c, x.1 = some c → c ∉ all) :
    (allTerms names ls).Pairwise fun a b => a.2 ≠ b.2 := by
  induction names generalizing ls with
  | nil => simp [allTerms, facs]
  | cons n ns ih =>
    cases ls with
    | nil => simp [allTerms]
    | cons x xs =>
      rw [allTerms_cons, List.pairwise_append]
      refine ⟨?_, ih (fun m hm => hs m (by simp [hm])) xs (fun y hy => hc y (by simp [hy])), ?_⟩
      · obtain ⟨c, l⟩ := x
        by_cases h0 : l = 0 <;> cases c <;> simp [counterPlus, h0, mulT]
      · intro a ha b hb hab
        rw [List.mem_map] at ha
        obtain ⟨u, hu, rfl⟩ := ha
        have h1 := weight_simple all ns (fun m hm => hs m (by simp [hm])) u (simple_counterPlus all x (hc x (by simp)) u hu)
        have h2 := (weight_allTerms all ns (fun m hm => hs m (by simp [hm])) xs (fun y hy => hc y (by simp [hy])) b hb).1
        unfold weight at h1 h2
        rw [hab] at h1
        omega

theorem expand_symbols (names : List String) (ls : List (Option String × Int))
    (hc : ∀ x ∈ ls, ∀ c, x.1 = some c → c ∉ names) :
    expand (facs names) (ls.map fun x => counterPlus x.1 x.2) = allTerms names ls := by
  unfold expand collect
  rw [collect_nodup _ []]
  · rfl
  · rw [List.nil_append]
    exact pairwise_allTerms names names (fun _ h => h) ls hc
  · intro t ht
    exact (weight_allTerms names names (fun _ h => h) ls hc t ht).2

theorem split_symbols (names : List String) (ls : List (Option String × Int)) (hlen : ls.length = names.length)
    (hc : ∀ x ∈ ls, ∀ c, x.1 = some c → c ∉ names) :
    split (names.map symbol) (ls.map fun x => counterPlus x.1 x.2) = some (ls.map fun x => counterPlus x.1 x.2) := by
  have h : coefficients (facs names) (allTerms names ls) = ls.map fun x => counterPlus x.1 x.2 := by
    have := fold_all names ls hlen hc [] [] rfl
    simpa [coefficients] using this
  unfold split
  simp only [factors_symbols, expand_symbols names ls hc, h, if_true]

end Verif.Split
