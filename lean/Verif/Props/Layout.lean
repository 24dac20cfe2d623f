import Verif.Lemmas.Layout

/-!
Properties C08-C11 (array flattening and virtual layout of `kerncraft/kernel.py`).
Specification: `Verif.Spec.Arrays` (C arrays as arrays of arrays).
-/

namespace Verif.Layout
open Verif.Iteration Verif.Spec

/-! ## C08 -/

/-- C08: an in-range access lies inside the array. -/
theorem C08_in_bounds (dims access : List Int) (h : InRange dims access) :
    0 ≤ flatten dims access ∧ flatten dims access < arraySize dims := by
  rw [flatten_eq _ _ h.length_eq.symm, arraySize_eq]
  exact cIndex_bounds dims access h

/-- C08: different in-range accesses get different positions. -/
theorem C08_injective (dims a b : List Int) (ha : InRange dims a) (hb : InRange dims b)
    (h : flatten dims a = flatten dims b) : a = b := by
  rw [flatten_eq _ _ ha.length_eq.symm, flatten_eq _ _ hb.length_eq.symm] at h
  exact cIndex_injective dims a b ha hb h

/-- C08: every position inside the array is the position of an in-range access. -/
theorem C08_surjective (dims : List Int) (h : ∀ d ∈ dims, 0 < d) (p : Int) (h0 : 0 ≤ p)
    (h1 : p < arraySize dims) : ∃ a, InRange dims a ∧ flatten dims a = p := by
  rw [arraySize_eq] at h1
  obtain ⟨a, ha, he⟩ := cIndex_surjective dims h p h0 h1
  exact ⟨a, ha, by rw [flatten_eq _ _ ha.length_eq.symm, he]⟩

/-- C08: the position is the C position of the element, for all subscript values. -/
theorem C08_is_c_position (dims access : List Int) (h : access.length = dims.length) :
    flatten dims access = cIndex dims access := flatten_eq dims access h

example : InRange [4, 5, 6] [3, 0, 5] := by simp [InRange]
example : flatten [4, 5, 6] [3, 0, 5] = 95 := by decide
example : arraySize [4, 5, 6] = 120 := by decide

/-! ## C09 -/

/-- C09: the rewritten declaration has one dimension with as many elements as the model computes and
keeps the element type. -/
theorem C09_declaration (env : String → Option Int) (t : CType) (dv : List Int)
    (hne : t.dims ≠ []) (hd : List.Forall₂ (Ev env) t.dims dv) :
    ∃ d, (transformDecl t).1 = .arr d t.elemType ∧ (transformDecl t).2 = t.dims ∧
      d.eval env = some (arraySize dv) := by
  unfold transformDecl
  cases hc : t.dims with
  | nil => exact absurd hc hne
  | cons x xs =>
    rw [hc] at hd
    cases hd with
    | @cons _ a _ as hx hxs =>
      refine ⟨xs.foldl .mul x, rfl, rfl, ?_⟩
      rw [arraySize_eq, cElems]
      exact foldl_mul_eval env x a xs as hx hxs

/-- C09: scalars are left alone. -/
theorem C09_scalar_declaration (n : String) : transformDecl (.base n) = (.base n, []) := rfl

/-- C09: the rewritten reference addresses the element the model uses. -/
theorem C09_reference (env : String → Option Int) (dimDict : String → Option (List Sym)) (r : CRef)
    (dims : List Sym) (hdd : dimDict r.root = some dims) (dv sv : List Int)
    (hd : List.Forall₂ (Ev env) dims dv) (hs : List.Forall₂ (Ev env) r.subsRev.reverse sv)
    (hlen : r.subsRev.length = dims.length) (hne : dims ≠ []) :
    ∃ e, transformRef dimDict r = .ok (.sub (.id r.root) e) ∧ e.eval env = some (flatten dv sv) := by
  have hl : sv.length = dv.length := by
    rw [← hs.length_eq, ← hd.length_eq, List.length_reverse, hlen]
  have hsr : List.Forall₂ (Ev env) r.subsRev sv.reverse := by
    have := List.rel_reverse hs
    simpa using this
  have hdr : List.Forall₂ (Ev env) dims.reverse dv.reverse := List.rel_reverse hd
  obtain ⟨l, hl1, hl2⟩ := summands_eval env _ _ hdr 0 _ _ hsr (Or.inr (by simpa using hne))
  have hsum : (summandVals dv.reverse 0 sv.reverse).sum = flatten dv sv := by
    rw [summandVals_sum _ _ (by simpa using hl), flatten_eq _ _ hl]
    simp
  unfold transformRef
  split
  · rename_i h0
    rw [h0] at hlen
    exact absurd (List.length_eq_zero_iff.1 hlen.symm) hne
  · rename_i s h0
    refine ⟨s, rfl, ?_⟩
    rw [h0] at hsr
    generalize hsv : sv.reverse = x at *
    cases hsr with
    | @cons _ v _ vs hv hvs =>
      cases hvs
      simp [summandVals, cElems] at hsum
      rw [← hsum]
      exact hv
  · rw [hdd]
    simp only [hl1]
    generalize hxx : summandVals dv.reverse 0 sv.reverse = vals at *
    cases hl2 with
    | nil =>
      have hlen' : sv.reverse.length = 0 := by
        cases hr : sv.reverse with
        | nil => rfl
        | cons v vs => rw [hr] at hxx; simp [summandVals] at hxx
      rw [← hsr.length_eq, hlen] at hlen'
      exact absurd (List.length_eq_zero_iff.1 hlen') hne
    | @cons x a xs as hx hxs =>
      refine ⟨xs.foldl .add x, rfl, ?_⟩
      rw [← hsum, List.sum_cons]
      exact foldl_add_eval env x a xs as hx hxs

/-- C09: references to arrays without recorded dimensions are rejected, not mis-addressed. -/
theorem C09_unknown_array_rejected (dimDict : String → Option (List Sym)) (r : CRef)
    (h : dimDict r.root = none) (h2 : 2 ≤ r.subsRev.length) :
    transformRef dimDict r = .error "KeyError" := by
  unfold transformRef
  split
  · rename_i h0; simp [h0] at h2
  · rename_i h0; simp [h0] at h2
  · rw [h]

/-- C09: `T a[d₁]…[dₙ]` becomes an array of elements of type `T` with as many of them as the model computes;
the extents are recorded in the order of the declaration. -/
theorem C09_declared_array (env : String → Option Int) (n : String) (ds : List Sym) (dv : List Int)
    (hne : ds ≠ []) (hd : List.Forall₂ (Ev env) ds dv) :
    ∃ d, transformDecl (ds.foldr .arr (.base n)) = (.arr d (.base n), ds) ∧
      d.eval env = some (arraySize dv) := by
  have h1 : (ds.foldr CType.arr (.base n)).dims = ds := by
    clear hne hd
    induction ds with
    | nil => rfl
    | cons x xs ih => simp [CType.dims, ih]
  have h2 : (ds.foldr CType.arr (.base n)).elemType = .base n := by
    clear hne hd h1
    induction ds with
    | nil => rfl
    | cons x xs ih => simp [CType.elemType, ih]
  obtain ⟨d, ha, hb, hc⟩ := C09_declaration env (ds.foldr .arr (.base n)) dv (by rwa [h1]) (by rwa [h1])
  exact ⟨d, Prod.ext (by rw [ha, h2]) (by rw [hb, h1]), hc⟩

/-- C09: `a[s₁]…[sₙ]` becomes a reference to `a` with one subscript, the position of the element that the
model uses. -/
theorem C09_subscripted_array (env : String → Option Int) (dimDict : String → Option (List Sym)) (a : String)
    (ss dims : List Sym) (hdd : dimDict a = some dims) (dv sv : List Int)
    (hd : List.Forall₂ (Ev env) dims dv) (hs : List.Forall₂ (Ev env) ss sv)
    (hlen : ss.length = dims.length) (hne : dims ≠ []) :
    ∃ e, transformRef dimDict (ss.foldl .sub (.id a)) = .ok (.sub (.id a) e) ∧
      e.eval env = some (flatten dv sv) := by
  have key : ∀ (l : List Sym) (r : CRef), (l.foldl CRef.sub r).root = r.root ∧
      (l.foldl CRef.sub r).subsRev = l.reverse ++ r.subsRev := by
    intro l
    induction l with
    | nil => intro r; simp
    | cons x xs ih => intro r; simp [ih, CRef.root, CRef.subsRev]
  have hr : (ss.foldl CRef.sub (.id a)).root = a := (key ss (.id a)).1
  have hsub : (ss.foldl CRef.sub (.id a)).subsRev = ss.reverse := by
    rw [(key ss (.id a)).2]; simp [CRef.subsRev]
  have := C09_reference env dimDict (ss.foldl .sub (.id a)) dims (by rwa [hr]) dv sv hd
    (by rwa [hsub, List.reverse_reverse]) (by rw [hsub, List.length_reverse, hlen]) hne
  rwa [hr] at this

example : [Sym.var "M", .var "N"].foldr CType.arr (.base "double") =
    .arr (.var "M") (.arr (.var "N") (.base "double")) := rfl

/-- `a[j+1][i-1]` in `double a[M][N]` with M = 10, N = 7, j = 2, i = 3. -/
def exEnv : String → Option Int
  | "M" => some 10 | "N" => some 7 | "j" => some 2 | "i" => some 3 | _ => none

def exRef : CRef :=
  .sub (.sub (.id "a") (.add (.var "j") (.num 1))) (.sub (.var "i") (.num 1))

example : [Sym.add (.var "j") (.num 1), .sub (.var "i") (.num 1)].foldl CRef.sub (.id "a") = exRef := rfl

example : transformRef (fun _ => some [.var "M", .var "N"]) exRef =
    .ok (.sub (.id "a") (.add (.sub (.var "i") (.num 1))
      (.mul (.add (.var "j") (.num 1)) (.var "N")))) := by decide
example : List.Forall₂ (Ev exEnv) exRef.subsRev.reverse [3, 2] := by
  simp [exRef, CRef.subsRev, Ev, Sym.eval, exEnv]
example : flatten [10, 7] [3, 2] = 23 := by decide
example : transformDecl (.arr (.var "M") (.arr (.var "N") (.base "double"))) =
    (.arr (.mul (.var "M") (.var "N")) (.base "double"), [.var "M", .var "N"]) := by decide

/-! ## C10 -/

/-- Array names are unique (`self.variables` is a dictionary). -/
def UniqueNames (vars : List Arr) : Prop := (vars.map (·.name)).Nodup

/-- All subscripts of `a` are in range for the array it accesses, in environment `env`. -/
def AccessInRange (vars : List Arr) (env : String → Option Int) (a : Access) : Prop :=
  ∀ v ∈ vars, v.name = a.arr → ∀ vals, List.Forall₂ (Ev env) a.subs vals → InRange v.dims vals

theorem sizesOk_of (vars : List Arr) (h : ∀ v ∈ vars, 0 ≤ v.elem ∧ ∀ d ∈ v.dims, 0 ≤ d) :
    SizesOk vars := by
  intro v hv
  rw [Arr.bytes, arraySize_eq]
  exact Int.mul_nonneg (cElems_nonneg _ (h v hv).2) (h v hv).1

/-- C10: the byte regions of different arrays are disjoint. -/
theorem C10_regions_disjoint (vars : List Arr) (hu : UniqueNames vars)
    (hsz : ∀ v ∈ vars, 0 ≤ v.elem ∧ ∀ d ∈ v.dims, 0 ≤ d) (spacing cl : Int) (hs : 0 ≤ spacing)
    (hc : 1 ≤ cl) (v w : Arr) (hv : v ∈ vars) (hw : w ∈ vars) (hvw : v.name ≠ w.name) (b c : Int)
    (hb : (baseOffsets spacing cl vars).lookup v.name = some b)
    (hc' : (baseOffsets spacing cl vars).lookup w.name = some c) :
    b + v.bytes ≤ c ∨ c + w.bytes ≤ b := by
  have hp := List.perm_insertionSort (fun a b : Arr => a.name ≤ b.name) vars
  refine assignBases_disjoint spacing cl 0 _ hs hc ?_ ?_ v w (hp.mem_iff.2 hv) (hp.mem_iff.2 hw) hvw
    b c (lookup_mem _ _ _ hb) (lookup_mem _ _ _ hc')
  · intro x hx; exact sizesOk_of vars hsz x (hp.mem_iff.1 hx)
  · exact ((hp.map _).nodup_iff).2 hu

/-- Provenance of a compiled byte offset. -/
structure Origin (vars : List Arr) (spacing cl : Int) (env : String → Option Int)
    (accs : List Access) (o : Int) (v : Arr) where
  acc : Access
  mem : acc ∈ accs
  vmem : v ∈ vars
  name : acc.arr = v.name
  base : Int
  hbase : (baseOffsets spacing cl vars).lookup v.name = some base
  vals : List Int
  hvals : List.Forall₂ (Ev env) acc.subs vals
  value : o = base + v.elem * flatten v.dims vals

theorem origin_of_iterOffsets (vars : List Arr) (hu : UniqueNames vars) (counters : List String)
    (loops : List Loop) (consts : String → Option Int) (accs : List Access) (spacing cl it : Int)
    (es : List Sym) (he : offsetExprs vars (baseOffsets spacing cl vars) counters accs = .ok es)
    (os : List Int) (ho : iterOffsets counters loops consts es it = .ok os) (o : Int) (hm : o ∈ os) :
    ∃ idx, globalIteratorToIndices loops it = some idx ∧
      ∃ v, Nonempty (Origin vars spacing cl (mkEnv counters idx consts) accs o v) := by
  unfold iterOffsets at ho
  split at ho
  · simp at ho
  · rename_i idx hidx
    refine ⟨idx, hidx, ?_⟩
    have hf := evalAll_mem _ _ _ ho
    obtain ⟨e, hemem, hev⟩ : ∃ e ∈ es, Sym.eval (mkEnv counters idx consts) e = some o := by
      clear ho he
      induction hf with
      | nil => simp at hm
      | @cons e x es xs h1 _ ih =>
        rcases List.mem_cons.1 hm with rfl | hm
        · exact ⟨e, by simp, h1⟩
        · obtain ⟨e', h2, h3⟩ := ih hm
          exact ⟨e', by simp [h2], h3⟩
    obtain ⟨v, hv, a, ha, hname, b, hb, rfl⟩ := offsetExprs_from vars _ counters accs hu es he e hemem
    simp only [Sym.eval, Option.bind_eq_bind] at hev
    cases hfl : Sym.eval (mkEnv counters idx consts) (flattenSymFrom v.dims 0 (.num 0) a.subs) with
    | none => simp [hfl] at hev
    | some z =>
      simp [hfl] at hev
      obtain ⟨a0, vals, h1, h2, h3⟩ := flattenSymFrom_eval _ _ _ _ _ _ hfl
      simp [Sym.eval] at h1
      refine ⟨v, ⟨a, ha, hv, hname, b, hb, vals, h2, ?_⟩⟩
      rw [← hev, h3, ← h1, flatten, mul_comm]
      ring

/-- C10: every byte offset compiled for an iteration comes from one of the accesses of the kernel,
evaluated at the loop indices of that iteration, and is the C address of the accessed element in
the region of its array. -/
theorem C10_offsets_are_element_addresses (vars : List Arr) (hu : UniqueNames vars)
    (counters : List String) (loops : List Loop) (consts : String → Option Int)
    (sources dests : List Access) (spacing cl : Int) (iters : List Int)
    (res : List (List Int × List Int))
    (h : compileGlobalOffsets vars counters loops consts sources dests spacing cl iters = .ok res) :
    List.Forall₂ (fun it (r : List Int × List Int) =>
      ∃ idx, globalIteratorToIndices loops it = some idx ∧
        (∀ o ∈ r.1, ∃ v, Nonempty (Origin vars spacing cl (mkEnv counters idx consts) sources o v)) ∧
        (∀ o ∈ r.2, ∃ v, Nonempty (Origin vars spacing cl (mkEnv counters idx consts) dests o v)))
      iters res := by
  unfold compileGlobalOffsets at h
  simp only [bind, Except.bind] at h
  split at h
  · simp at h
  split at h
  · simp at h
  rename_i loads hloads
  split at h
  · simp at h
  rename_i stores hstores
  clear * - h hloads hstores hu
  induction iters generalizing res with
  | nil => simp [pure, Except.pure] at h; subst h; exact .nil
  | cons it its ih =>
    rw [List.mapM_cons] at h
    simp only [bind, Except.bind] at h
    split at h
    · simp at h
    rename_i r hr
    split at h
    · simp at h
    rename_i rest hrest
    simp [pure, Except.pure] at h
    subst h
    refine .cons ?_ (ih rest hrest)
    split at hr
    · simp at hr
    rename_i l hl
    split at hr
    · simp at hr
    rename_i s hs
    simp at hr
    subst hr
    have hidx : ∃ idx, globalIteratorToIndices loops it = some idx := by
      unfold iterOffsets at hl
      split at hl
      · simp at hl
      · rename_i idx hidx; exact ⟨idx, hidx⟩
    obtain ⟨idx, hidx⟩ := hidx
    refine ⟨idx, hidx, fun o ho => ?_, fun o ho => ?_⟩
    · obtain ⟨idx', h1, h2⟩ := origin_of_iterOffsets vars hu counters loops consts sources spacing cl it
        loads hloads l hl o ho
      rw [hidx] at h1
      cases h1
      exact h2
    · obtain ⟨idx', h1, h2⟩ := origin_of_iterOffsets vars hu counters loops consts dests spacing cl it
        stores hstores s hs o ho
      rw [hidx] at h1
      cases h1
      exact h2

/-- C10: an offset stays inside the region of its array if the access is in range. -/
theorem C10_offset_in_own_region (vars : List Arr) (spacing cl : Int) (env : String → Option Int)
    (accs : List Access) (o : Int) (v : Arr) (p : Origin vars spacing cl env accs o v)
    (hr : AccessInRange vars env p.acc) (he : 0 < v.elem) :
    p.base ≤ o ∧ o + v.elem ≤ p.base + v.bytes := by
  have hin := hr v p.vmem p.name.symm p.vals p.hvals
  obtain ⟨h1, h2⟩ := C08_in_bounds _ _ hin
  have hval := p.value
  rw [Arr.bytes]
  constructor
  · have := Int.mul_nonneg he.le h1
    omega
  · have : v.elem * (flatten v.dims p.vals + 1) ≤ v.elem * arraySize v.dims :=
      Int.mul_le_mul_of_nonneg_left (by omega) he.le
    rw [mul_add, mul_one] at this
    rw [mul_comm (arraySize v.dims)]
    omega

/-- C10: accesses to different arrays never touch a common byte. -/
theorem C10_no_common_byte (vars : List Arr) (hu : UniqueNames vars)
    (hsz : ∀ v ∈ vars, 0 < v.elem ∧ ∀ d ∈ v.dims, 0 ≤ d) (spacing cl : Int) (hs : 0 ≤ spacing)
    (hc : 1 ≤ cl) (env env' : String → Option Int) (accs accs' : List Access) (o o' : Int)
    (v w : Arr) (p : Origin vars spacing cl env accs o v) (q : Origin vars spacing cl env' accs' o' w)
    (hp : AccessInRange vars env p.acc) (hq : AccessInRange vars env' q.acc) (hvw : v.name ≠ w.name)
    (byte : Int) (h1 : o ≤ byte ∧ byte < o + v.elem) : ¬ (o' ≤ byte ∧ byte < o' + w.elem) := by
  intro h2
  have ha := C10_offset_in_own_region _ _ _ _ _ _ _ p hp (hsz v p.vmem).1
  have hb := C10_offset_in_own_region _ _ _ _ _ _ _ q hq (hsz w q.vmem).1
  have := C10_regions_disjoint vars hu (fun v hv => ⟨(hsz v hv).1.le, (hsz v hv).2⟩) spacing cl hs hc
    v w p.vmem q.vmem hvw p.base q.base p.hbase q.hbase
  omega

/-- C10: in one iteration every loop counter has the value of its loop, the outermost first, and every other
name the value of the constant. -/
theorem C10_counters (counters : List String) (idx : List Int) (consts : String → Option Int)
    (hn : counters.Nodup) :
    (∀ (k : Nat) c i, counters[k]? = some c → idx[k]? = some i → mkEnv counters idx consts c = some i) ∧
    (∀ s, s ∉ counters → mkEnv counters idx consts s = consts s) := by
  refine ⟨?_, ?_⟩
  · intro k c i hc hi
    have : (counters.zip idx).lookup c = some i := by
      induction counters generalizing k idx with
      | nil => simp at hc
      | cons x xs ih =>
        cases idx with
        | nil => simp at hi
        | cons y ys =>
          rw [List.nodup_cons] at hn
          cases k with
          | zero =>
            simp at hc hi
            subst hc hi
            simp
          | succ k =>
            simp only [List.getElem?_cons_succ] at hc hi
            have hx : c ≠ x := fun e => hn.1 (e ▸ List.mem_of_getElem? hc)
            rw [List.zip_cons_cons, List.lookup_cons]
            simp only [beq_eq_false_iff_ne.2 hx]
            exact ih ys hn.2 k hc hi
    simp [mkEnv, this]
  · intro s hs
    have : (counters.zip idx).lookup s = none := by
      clear hn
      induction counters generalizing idx with
      | nil => rfl
      | cons x xs ih =>
        cases idx with
        | nil => rfl
        | cons y ys =>
          rw [List.mem_cons, not_or] at hs
          rw [List.zip_cons_cons, List.lookup_cons]
          simp only [beq_eq_false_iff_ne.2 hs.1]
          exact ih ys hs.2
    simp [mkEnv, this]

example : ["j", "i"].Nodup ∧ ["j", "i"][0]? = some "j" ∧ ([2, 1] : List Int)[0]? = some 2 := by decide

/-- `double a[5], b[3][4]`, `for (j = 1; j < 3; ++j) for (i = 0; i < 4; ++i) a[i+1] = b[j-1][i]` -/
def exVars : List Arr := [⟨"b", 8, [3, 4]⟩, ⟨"a", 8, [5]⟩]
def exLoops : List Loop := [⟨1, 3, 1⟩, ⟨0, 4, 1⟩]
def exSrc : List Access := [⟨"b", [.sub (.var "j") (.num 1), .var "i"]⟩]
def exDst : List Access := [⟨"a", [.add (.var "i") (.num 1)]⟩]

theorem exBases : baseOffsets 0 64 exVars = [("a", 0), ("b", 64)] := by
  have h1 : roundUp 40 64 = 64 := by rw [roundUp_eq _ _ (by decide) (by decide)]; decide
  have h2 : exVars.insertionSort (fun a b => a.name ≤ b.name) = exVars.reverse := by decide
  rw [baseOffsets, h2]
  simp [exVars, assignBases, Arr.bytes, arraySize, h1]

example : compileGlobalOffsets exVars ["j", "i"] exLoops (fun _ => none) exSrc exDst 0 64 [0, 5] =
    .ok [([64], [8]), ([64 + 8 * 5], [16])] := by
  unfold compileGlobalOffsets; rw [exBases]; decide
example : UniqueNames exVars := by unfold UniqueNames; decide
example : AccessInRange exVars (mkEnv ["j", "i"] [2, 1] (fun _ => none))
    ⟨"b", [.sub (.var "j") (.num 1), .var "i"]⟩ := by
  intro v hv hn vals hvals
  simp [exVars] at hv
  rcases hv with rfl | rfl
  · cases hvals with
    | cons h1 h2 => cases h2 with
      | cons h2 h3 =>
        cases h3
        simp [Ev, Sym.eval, mkEnv, List.lookup] at h1 h2
        subst h1 h2
        simp [InRange]
  · simp at hn

/-! ## C11 -/

/-- C11: base offsets are multiples of a power-of-two cacheline size. -/
theorem C11_bases_aligned (vars : List Arr)
    (hsz : ∀ v ∈ vars, 0 ≤ v.elem ∧ ∀ d ∈ v.dims, 0 ≤ d) (spacing : Int) (hs : 0 ≤ spacing) (k : Nat)
    (n : String) (b : Int) (hb : (n, b) ∈ baseOffsets spacing ((2 ^ k : Nat) : Int) vars) :
    ((2 ^ k : Nat) : Int) ∣ b := by
  have hp := List.perm_insertionSort (fun a b : Arr => a.name ≤ b.name) vars
  exact assignBases_dvd spacing 0 k _ hs
    (fun x hx => sizesOk_of vars hsz x (hp.mem_iff.1 hx)) (Int.dvd_zero _) n b hb

/-- C11: base offsets do not depend on the declaration order. -/
theorem C11_declaration_order_irrelevant (vars vars' : List Arr) (hu : UniqueNames vars)
    (hp : vars.Perm vars') (spacing cl : Int) :
    baseOffsets spacing cl vars = baseOffsets spacing cl vars' := by
  unfold baseOffsets
  rw [sort_perm vars vars' hp hu]

/-- C11: every array has exactly one base offset. -/
theorem C11_every_array_placed (vars : List Arr) (spacing cl : Int) :
    ((baseOffsets spacing cl vars).map Prod.fst).Perm (vars.map (·.name)) := by
  unfold baseOffsets
  rw [assignBases_names]
  exact (List.perm_insertionSort _ vars).map _

/-- C11: alignment wastes less than one cacheline per array. -/
theorem C11_padding_below_cacheline (size : Int) (k : Nat) (hs : 0 ≤ size) :
    size ≤ roundUp size ((2 ^ k : Nat) : Int) ∧
      roundUp size ((2 ^ k : Nat) : Int) < size + ((2 ^ k : Nat) : Int) :=
  ⟨roundUp_ge size _ hs (by exact_mod_cast Nat.one_le_two_pow), roundUp_lt size k hs⟩

example : baseOffsets 0 ((2 ^ 6 : Nat) : Int) exVars.reverse = [("a", 0), ("b", 64)] := by
  rw [← C11_declaration_order_irrelevant exVars _ (by unfold UniqueNames; decide)
    (List.reverse_perm _).symm]
  exact exBases
example : exVars.Perm exVars.reverse := (List.reverse_perm _).symm

end Verif.Layout
