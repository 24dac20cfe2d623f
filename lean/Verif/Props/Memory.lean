import Verif.Spec.CInt
import Verif.Model.CodeGen
import Verif.Lemmas.Layout
import Mathlib.Tactic.NormNum
import Mathlib.Tactic.Linarith

/-!
C83: memory of arrays in generated programs, and the integer arithmetic of its size and of subscripts.
-/

namespace Verif.CodeGen

open Verif.Layout Verif.Spec

/-! ### Helper lemmas -/

theorem inType_of (m v : Int) (h0 : 0 ≤ v) (h1 : v ≤ m) : inType m v = some v := by
  unfold inType
  rw [if_pos]
  omega

/-- `s` evaluates to `v` without overflow. -/
abbrev Cv (m : Int) (env : String → Option Int) : Sym → Int → Prop := fun s v => cEval m env s = some v

theorem cElems_pos (vs : List Int) (h : ∀ v ∈ vs, 1 ≤ v) : 1 ≤ cElems vs := by
  induction vs with
  | nil => simp [cElems]
  | cons v vs ih =>
    rw [cElems]
    have h1 := h v (by simp)
    have h2 := ih fun x hx => h x (by simp [hx])
    nlinarith

theorem cv_foldl_mul (m : Int) (env : String → Option Int) (x : Sym) (a : Int) (xs : List Sym) (vs : List Int)
    (hx : Cv m env x a) (ha : 0 ≤ a) (h : List.Forall₂ (Cv m env) xs vs) (hv : ∀ v ∈ vs, 1 ≤ v)
    (hm : a * cElems vs ≤ m) : Cv m env (xs.foldl .mul x) (a * cElems vs) := by
  induction h generalizing x a with
  | nil => simpa [cElems] using hx
  | @cons y b ys bs hy _ ih =>
    have hb : 1 ≤ b := hv b (by simp)
    have hbs := cElems_pos bs fun v h => hv v (by simp [h])
    rw [cElems, ← mul_assoc] at hm
    rw [List.foldl_cons, cElems, ← mul_assoc]
    have hab : 0 ≤ a * b := mul_nonneg ha (by omega)
    refine ih (.mul x y) (a * b) ?_ hab (fun v h => hv v (by simp [h])) hm
    unfold Cv at *
    simp only [cEval, hx, hy]
    exact inType_of _ _ hab (by nlinarith)

theorem cv_foldl_add (m : Int) (env : String → Option Int) (x : Sym) (a : Int) (xs : List Sym) (vs : List Int)
    (hx : Cv m env x a) (ha : 0 ≤ a) (h : List.Forall₂ (Cv m env) xs vs) (hv : ∀ v ∈ vs, 0 ≤ v)
    (hm : a + vs.sum ≤ m) : Cv m env (xs.foldl .add x) (a + vs.sum) := by
  induction h generalizing x a with
  | nil => simpa using hx
  | @cons y b ys bs hy _ ih =>
    have hb : 0 ≤ b := hv b (by simp)
    have hbs : 0 ≤ bs.sum := List.sum_nonneg fun v h => hv v (by simp [h])
    rw [List.sum_cons, ← add_assoc] at hm
    rw [List.foldl_cons, List.sum_cons, ← add_assoc]
    refine ih (.add x y) (a + b) ?_ (by omega) (fun v h => hv v (by simp [h])) hm
    unfold Cv at *
    simp only [cEval, hx, hy]
    exact inType_of _ _ (by omega) (by omega)

theorem cElems_take_le (vs : List Int) (h : ∀ v ∈ vs, 1 ≤ v) (i : Nat) : cElems (vs.take i) ≤ cElems vs := by
  have h1 := cElems_append (vs.take i) (vs.drop i)
  rw [List.take_append_drop] at h1
  have h2 := cElems_pos (vs.drop i) fun v hv => h v (List.mem_of_mem_drop hv)
  have h3 := cElems_pos (vs.take i) fun v hv => h v (List.mem_of_mem_take hv)
  nlinarith

theorem summandVals_nonneg (dv : List Int) (hd : ∀ v ∈ dv, 1 ≤ v) (i : Nat) (sv : List Int) (hs : ∀ v ∈ sv, 0 ≤ v) :
    ∀ x ∈ summandVals dv i sv, 0 ≤ x := by
  induction sv generalizing i with
  | nil => simp [summandVals]
  | cons a as ih =>
    intro x hx
    rw [summandVals, List.mem_cons] at hx
    rcases hx with rfl | hx
    · have := cElems_pos (dv.take i) fun v hv => hd v (List.mem_of_mem_take hv)
      exact mul_nonneg (hs a (by simp)) (by omega)
    · exact ih (i + 1) (fun v h => hs v (by simp [h])) x hx

theorem cv_summands (m : Int) (env : String → Option Int) (dimsRev : List Sym) (dv : List Int)
    (hd : List.Forall₂ (Cv m env) dimsRev dv) (hpos : ∀ v ∈ dv, 1 ≤ v) (hcap : cElems dv ≤ m) (hne : dimsRev ≠ [])
    (i : Nat) (ss : List Sym) (sv : List Int) (hs : List.Forall₂ (Cv m env) ss sv) (hsp : ∀ v ∈ sv, 0 ≤ v)
    (hm : ∀ x ∈ summandVals dv i sv, x ≤ m) :
    ∃ l, summands dimsRev i ss = some l ∧ List.Forall₂ (Cv m env) l (summandVals dv i sv) := by
  induction hs generalizing i with
  | nil => exact ⟨[], by cases i <;> rfl, .nil⟩
  | @cons s v ss vs hsv htl ih =>
    obtain ⟨l, hl, hl2⟩ := ih (i + 1) (fun v h => hsp v (by simp [h]))
      (fun x hx => hm x (by rw [summandVals]; simp [hx]))
    have hx := hm (v * cElems (dv.take i)) (by rw [summandVals]; simp)
    cases i with
    | zero =>
      refine ⟨s :: l, by simp only [summands]; rw [hl]; rfl, ?_⟩
      rw [summandVals]
      refine .cons ?_ hl2
      simpa [cElems] using hsv
    | succ i =>
      have hred : ∃ p, reduceSym .mul (dimsRev.take (i + 1)) = some p ∧ Cv m env p (cElems (dv.take (i + 1))) := by
        have hle := cElems_take_le dv hpos (i + 1)
        cases hd with
        | nil => exact absurd rfl hne
        | @cons x a xs as hxa hxs =>
          refine ⟨(xs.take i).foldl .mul x, rfl, ?_⟩
          rw [List.take_succ_cons, cElems] at hle ⊢
          have ha : 1 ≤ a := hpos a (by simp)
          exact cv_foldl_mul m env x a _ _ hxa (by omega) (List.forall₂_take i hxs)
            (fun v hv => hpos v (by simp [List.mem_of_mem_take hv])) (by omega)
      obtain ⟨p, hp, hpv⟩ := hred
      refine ⟨.mul s p :: l, by simp only [summands]; rw [hp, hl]; rfl, ?_⟩
      rw [summandVals]
      refine .cons ?_ hl2
      have h1 := cElems_pos (dv.take (i + 1)) fun v hv => hpos v (List.mem_of_mem_take hv)
      unfold Cv at *
      simp only [cEval, hsv, hpv]
      exact inType_of _ _ (mul_nonneg (hsp v (by simp)) (by omega)) hx

/-! ### C83 -/

/-- C83: the main program allocates memory for every array of the kernel, the kernel function for none; the number of
elements is the product of the dimensions. -/
theorem C83_allocated (items : List Item) (indexType consts : List String) (n : String) (d : Sym) (t : CType)
    (h : Item.decl n (.arr d t) ∈ items) (env : String → Option Int) (dv : List Int)
    (hd : List.Forall₂ (Ev env) (d :: t.dims) dv) :
    (∃ e, ⟨n, .ptr t.elemType, .malloc e⟩ ∈ mainDecls items indexType consts ∧ e.eval env = some (cElems dv)) ∧
    ∀ p ∈ kernelParams items indexType consts, p.init = .none := by
  have hmem : (n, CType.arr d t) ∈ arrayDecls items := by
    unfold arrayDecls
    rw [List.mem_filterMap]
    exact ⟨_, h, rfl⟩
  have hdims : (CType.arr d t).dims = d :: t.dims := rfl
  constructor
  · cases hd with
    | @cons _ a _ as hx hxs =>
      refine ⟨t.dims.foldl .mul d, ?_, ?_⟩
      · unfold mainDecls buildArrays
        simp only [List.mem_append, List.mem_map]
        refine Or.inl (Or.inr ⟨_, hmem, ?_⟩)
        simp [transformDecl, hdims, reduceSym, toMalloc, CType.elemType]
      · exact foldl_mul_eval env d a _ _ hx hxs
  · intro p hp
    unfold kernelParams at hp
    rw [List.mem_append, List.mem_append] at hp
    rcases hp with (hp | hp) | hp
    · unfold buildArrays at hp
      rw [List.mem_map] at hp
      obtain ⟨x, _, rfl⟩ := hp
      simp only [toMalloc]
      split <;> rfl
    · unfold getScalars at hp
      rw [List.mem_map] at hp
      obtain ⟨x, _, rfl⟩ := hp
      rfl
    · unfold buildConsts at hp
      generalize 2 = i at hp
      induction consts generalizing i with
      | nil => simp [buildConstsFrom] at hp
      | cons k ks ih =>
        rw [buildConstsFrom, List.mem_cons] at hp
        rcases hp with rfl | hp
        · rfl
        · exact ih _ hp

/-- C83, partial: if the number of elements fits the index type, it is calculated without overflow. Missing: larger
arrays (`C83_negation`). -/
theorem C83_size_partial (m : Int) (env : String → Option Int) (t : CType) (dv : List Int) (hne : t.dims ≠ [])
    (hd : List.Forall₂ (Cv m env) t.dims dv) (hpos : ∀ v ∈ dv, 1 ≤ v) (hm : cElems dv ≤ m) :
    ∃ e, (transformDecl t).1 = .arr e t.elemType ∧ cEval m env e = some (cElems dv) := by
  unfold transformDecl
  cases hc : t.dims with
  | nil => exact absurd hc hne
  | cons x xs =>
    rw [hc] at hd
    cases hd with
    | @cons _ a _ as hx hxs =>
      have ha : 1 ≤ a := hpos a (by simp)
      exact ⟨xs.foldl .mul x, rfl, cv_foldl_mul m env x a xs as hx (by omega) hxs
        (fun v hv => hpos v (by simp [hv])) (by rw [cElems] at hm; exact hm)⟩

/-- Values that C calculates fit the type. -/
theorem cEval_le (m : Int) (env : String → Option Int) (e : Sym) (v : Int) (h : cEval m env e = some v) : v ≤ m := by
  have key : ∀ x, inType m x = some v → v ≤ m := by
    intro x hx
    unfold inType at hx
    split at hx
    · cases hx; omega
    · cases hx
  cases e <;> simp only [cEval] at h
  all_goals first
    | exact key _ h
    | (split at h
       · exact key _ h
       · cases h)

/-- C83: the exact condition. The number of elements of an array is calculated without overflow if and only if it fits the index type. -/
theorem C83_size_iff (m : Int) (env : String → Option Int) (t : CType) (dv : List Int) (hne : t.dims ≠ [])
    (hd : List.Forall₂ (Cv m env) t.dims dv) (hpos : ∀ v ∈ dv, 1 ≤ v) :
    (∃ e, (transformDecl t).1 = .arr e t.elemType ∧ cEval m env e = some (cElems dv)) ↔ cElems dv ≤ m :=
  ⟨fun ⟨e, _, h⟩ => cEval_le m env e _ h, C83_size_partial m env t dv hne hd hpos⟩

/-- `double a[3][N]` with the largest number of elements in 8 bits, and with one column more. -/
example : (∃ e, (transformDecl (.arr (.num 3) (.arr (.var "N") (.base "double")))).1 = .arr e (.base "double") ∧
      cEval 127 (fun _ => some 42) e = some 126) ∧
    ¬ ∃ e, (transformDecl (.arr (.num 3) (.arr (.var "N") (.base "double")))).1 = .arr e (.base "double") ∧
      cEval 127 (fun _ => some 43) e = some 129 :=
  ⟨(C83_size_iff 127 (fun _ => some 42) (.arr (.num 3) (.arr (.var "N") (.base "double"))) [3, 42] (by simp [CType.dims])
      (.cons rfl (.cons rfl .nil)) (by decide)).2 (by decide),
    fun h => absurd ((C83_size_iff 127 (fun _ => some 43) (.arr (.num 3) (.arr (.var "N") (.base "double"))) [3, 43] (by simp [CType.dims])
      (.cons rfl (.cons rfl .nil)) (by decide)).1 h) (by decide)⟩

theorem cIndex_lt (dv sv : List Int) (h : InRange dv sv) : 0 ≤ cIndex dv sv ∧ cIndex dv sv < cElems dv := by
  induction h with
  | nil => simp [cIndex, cElems]
  | @cons d a ds as h hs ih =>
    have hp : 1 ≤ cElems ds := by
      refine cElems_pos ds fun v hv => ?_
      obtain ⟨i, hi, rfl⟩ := List.getElem_of_mem hv
      have := hs.get hi (by rw [← hs.length_eq]; exact hi)
      simp at this
      omega
    rw [cIndex, cElems]
    have h1 : 0 ≤ a * cElems ds := mul_nonneg h.1 (by omega)
    have h2 : (a + 1) * cElems ds ≤ d * cElems ds := by
      apply mul_le_mul_of_nonneg_right _ (by omega)
      omega
    constructor
    · omega
    · nlinarith

theorem mem_le_sum (l : List Int) (h : ∀ x ∈ l, 0 ≤ x) (x : Int) (hx : x ∈ l) : x ≤ l.sum := by
  induction l with
  | nil => cases hx
  | cons a l ih =>
    have h0 : 0 ≤ l.sum := List.sum_nonneg fun v hv => h v (by simp [hv])
    have h1 := h a (by simp)
    rw [List.sum_cons]
    rcases List.mem_cons.mp hx with rfl | hx
    · omega
    · have := ih (fun v hv => h v (by simp [hv])) hx
      omega

/-- C83, partial: if the number of elements fits the index type and all subscripts are within the declared extents, the
position of the element is calculated without overflow. -/
theorem C83_position_partial (m : Int) (env : String → Option Int) (dimDict : String → Option (List Sym)) (r : CRef)
    (dims : List Sym) (hdd : dimDict r.root = some dims) (dv sv : List Int)
    (hd : List.Forall₂ (Cv m env) dims dv) (hs : List.Forall₂ (Cv m env) r.subsRev.reverse sv)
    (hr : InRange dv sv) (hne : dims ≠ []) (hm : cElems dv ≤ m) :
    ∃ e, transformRef dimDict r = .ok (.sub (.id r.root) e) ∧ cEval m env e = some (cIndex dv sv) := by
  have hl : sv.length = dv.length := hr.length_eq.symm
  have hlen : r.subsRev.length = dims.length := by
    rw [hd.length_eq, ← hl, ← hs.length_eq, List.length_reverse]
  have hpos : ∀ v ∈ dv, 1 ≤ v := by
    intro v hv
    obtain ⟨i, hi, rfl⟩ := List.getElem_of_mem hv
    have := hr.get hi (by omega)
    simp at this
    omega
  have hsp : ∀ v ∈ sv, 0 ≤ v := by
    intro v hv
    obtain ⟨i, hi, rfl⟩ := List.getElem_of_mem hv
    have := hr.get (by omega) hi
    simp at this
    omega
  have hsr : List.Forall₂ (Cv m env) r.subsRev sv.reverse := by
    have := List.rel_reverse hs
    simpa using this
  have hdr : List.Forall₂ (Cv m env) dims.reverse dv.reverse := List.rel_reverse hd
  have hpos' : ∀ v ∈ dv.reverse, 1 ≤ v := fun v hv => hpos v (by simpa using hv)
  have hsp' : ∀ v ∈ sv.reverse, 0 ≤ v := fun v hv => hsp v (by simpa using hv)
  have hcE : cElems dv.reverse = cElems dv := by
    clear * -
    induction dv with
    | nil => rfl
    | cons a l ih => rw [List.reverse_cons, cElems_append, ih, cElems, cElems, cElems]; ring
  have hsum : (summandVals dv.reverse 0 sv.reverse).sum = cIndex dv sv := by
    rw [summandVals_sum _ _ (by simpa using hl)]
    simp
  have hnn := summandVals_nonneg dv.reverse hpos' 0 sv.reverse hsp'
  have hidx := cIndex_lt dv sv hr
  obtain ⟨l, hl1, hl2⟩ := cv_summands m env _ _ hdr hpos' (by rw [hcE]; exact hm) (by simpa using hne) 0 _ _ hsr hsp'
    (fun x hx => by
      have := mem_le_sum _ hnn x hx
      omega)
  unfold transformRef
  split
  · rename_i h0
    rw [h0] at hlen
    exact absurd (List.length_eq_zero_iff.1 hlen.symm) hne
  · rename_i s h0
    refine ⟨s, rfl, ?_⟩
    rw [h0] at hsr
    generalize hsv : sv.reverse = x at *
    cases hsr with
    | @cons _ v _ vs hv hvs =>
      cases hvs
      simp [summandVals, cElems] at hsum
      rw [← hsum]
      exact hv
  · rw [hdd]
    simp only [hl1]
    generalize hxx : summandVals dv.reverse 0 sv.reverse = vals at *
    cases hl2 with
    | nil =>
      have hlen' : sv.reverse.length = 0 := by
        cases hr : sv.reverse with
        | nil => rfl
        | cons v vs => rw [hr] at hxx; simp [summandVals] at hxx
      rw [← hsr.length_eq, hlen] at hlen'
      exact absurd (List.length_eq_zero_iff.1 hlen') hne
    | @cons x a xs as hx hxs =>
      refine ⟨xs.foldl .add x, rfl, ?_⟩
      rw [List.sum_cons] at hsum
      rw [← hsum]
      exact cv_foldl_add m env x a xs as hx (hnn a (by simp)) hxs (fun v hv => hnn v (by simp [hv])) (by omega)

/-- Constants M = N = 50000. -/
def bigEnv : String → Option Int
  | "M" => some 50000 | "N" => some 50000 | "j" => some 49999 | "i" => some 49999 | _ => none

/-- C83, negation: with `int` of 32 bits, the size of `double a[M][N]` and the position of `a[j][i]` overflow although all
constants and counters fit. The memory (20 GB) could be provided. -/
theorem C83_negation :
    (∀ x ∈ ["M", "N", "i", "j"], ∃ v, cEval (2 ^ 31 - 1) bigEnv (.var x) = some v) ∧
    (∃ e, (transformDecl (.arr (.var "M") (.arr (.var "N") (.base "double")))).1 = .arr e (.base "double") ∧
      e.eval bigEnv = some 2500000000 ∧ cEval (2 ^ 31 - 1) bigEnv e = none) ∧
    (∃ e, transformRef (fun _ => some [.var "M", .var "N"]) (.sub (.sub (.id "a") (.var "j")) (.var "i")) =
      .ok (.sub (.id "a") e) ∧ e.eval bigEnv = some 2499999999 ∧ cEval (2 ^ 31 - 1) bigEnv e = none) := by
  refine ⟨?_, ⟨.mul (.var "M") (.var "N"), rfl, by decide +kernel, by decide +kernel⟩,
    ⟨.add (.var "i") (.mul (.var "j") (.var "N")), rfl, by decide +kernel, by decide +kernel⟩⟩
  intro x hx
  simp only [List.mem_cons, List.not_mem_nil, or_false] at hx
  rcases hx with rfl | rfl | rfl | rfl
  · exact ⟨50000, by decide +kernel⟩
  · exact ⟨50000, by decide +kernel⟩
  · exact ⟨49999, by decide +kernel⟩
  · exact ⟨49999, by decide +kernel⟩

/-- `double a[M][N]` with M = N = 40000, last element. -/
example : ∃ e, transformRef (fun _ => some [.var "M", .var "N"]) (.sub (.sub (.id "a") (.var "j")) (.var "i")) =
      .ok (.sub (.id "a") e) ∧
    cEval (2 ^ 31 - 1) (fun x => if x = "M" ∨ x = "N" then some 40000 else some 39999) e = some 1599999999 := by
  refine ⟨.add (.var "i") (.mul (.var "j") (.var "N")), rfl, by decide +kernel⟩
example : InRange [40000, 40000] [39999, 39999] ∧ cElems [40000, 40000] ≤ 2 ^ 31 - 1 := by
  refine ⟨.cons (by decide) (.cons (by decide) .nil), by decide⟩
/-- `double a[M][N]` in a kernel with M = 3, N = 4. -/
example : Item.decl "a" (.arr (.var "M") (.arr (.var "N") (.base "double"))) ∈
      [Item.decl "s" (.base "double"), .decl "a" (.arr (.var "M") (.arr (.var "N") (.base "double")))] ∧
    List.Forall₂ (Ev fun x => if x = "M" then some 3 else some 4)
      (Sym.var "M" :: (CType.arr (.var "N") (.base "double")).dims) [3, 4] := by
  refine ⟨by decide, .cons rfl (.cons rfl .nil)⟩

end Verif.CodeGen
