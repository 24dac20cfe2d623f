import Verif.Model.Layout
import Verif.Spec.Arrays
import Verif.Lemmas.Iteration
import Mathlib.Data.Nat.Bitwise
import Mathlib.Tactic.Ring
import Mathlib.Tactic.Linarith
import Mathlib.Tactic.Positivity

namespace Verif.Layout
open Verif.Iteration Verif.Spec

/-! ### flattening -/

theorem foldl_mul_acc (l : List Int) (x : Int) : l.foldl (· * ·) x = x * cElems l := by
  induction l generalizing x with
  | nil => simp [cElems]
  | cons a l ih => rw [List.foldl_cons, ih, cElems, mul_assoc]

theorem arraySize_eq (dims : List Int) : arraySize dims = cElems dims := by
  rw [arraySize, foldl_mul_acc, one_mul]

theorem flattenFrom_acc (dims : List Int) (d : Nat) (acc : Int) (as : List Int) :
    flattenFrom dims d acc as = acc + flattenFrom dims d 0 as := by
  induction as generalizing d acc with
  | nil => simp [flattenFrom]
  | cons a as ih =>
    rw [flattenFrom, flattenFrom, ih, ih (d + 1) (0 + _)]
    ring

theorem flattenFrom_shift (D : Int) (ds : List Int) (d : Nat) (acc : Int) (as : List Int) :
    flattenFrom (D :: ds) (d + 1) acc as = flattenFrom ds d acc as := by
  induction as generalizing d acc with
  | nil => rfl
  | cons a as ih => rw [flattenFrom, flattenFrom, ih]; rfl

theorem flatten_eq (dims access : List Int) (h : access.length = dims.length) :
    flatten dims access = cIndex dims access := by
  unfold flatten
  induction dims generalizing access with
  | nil => cases access with
    | nil => rfl
    | cons a as => simp at h
  | cons D ds ih => cases access with
    | nil => simp at h
    | cons a as =>
      rw [flattenFrom, flattenFrom_acc, flattenFrom_shift, ih as (by simpa using h), cIndex]
      simp only [List.drop_succ_cons, List.drop_zero]
      rw [foldl_mul_acc]
      ring

theorem cElems_pos (dims : List Int) (h : ∀ d ∈ dims, 0 < d) : 0 < cElems dims := by
  induction dims with
  | nil => simp [cElems]
  | cons d ds ih =>
    rw [cElems]
    exact Int.mul_pos (h d (by simp)) (ih (fun x hx => h x (by simp [hx])))

theorem cElems_nonneg (dims : List Int) (h : ∀ d ∈ dims, 0 ≤ d) : 0 ≤ cElems dims := by
  induction dims with
  | nil => simp [cElems]
  | cons d ds ih =>
    rw [cElems]
    exact Int.mul_nonneg (h d (by simp)) (ih (fun x hx => h x (by simp [hx])))

theorem cIndex_bounds (dims access : List Int) (h : InRange dims access) :
    0 ≤ cIndex dims access ∧ cIndex dims access < cElems dims := by
  induction h with
  | nil => simp [cIndex, cElems]
  | @cons d a ds as hd _ ih =>
    rw [cIndex, cElems]
    have hpos : 0 < cElems ds := by omega
    constructor
    · have := Int.mul_nonneg hd.1 hpos.le
      omega
    · have : (a + 1) * cElems ds ≤ d * cElems ds := Int.mul_le_mul_of_nonneg_right (by omega) hpos.le
      rw [add_mul, one_mul] at this
      omega

theorem cIndex_injective (dims a b : List Int) (ha : InRange dims a) (hb : InRange dims b)
    (h : cIndex dims a = cIndex dims b) : a = b := by
  induction ha generalizing b with
  | nil => cases hb; rfl
  | @cons d x ds as hx has ih =>
    cases hb with
    | @cons _ y _ bs hy hbs =>
      rw [cIndex, cIndex] at h
      have h1 := cIndex_bounds ds as has
      have h2 := cIndex_bounds ds bs hbs
      have hxy : x = y := by
        by_contra hne
        rcases lt_or_gt_of_ne hne with hlt | hlt
        · have : (x + 1) * cElems ds ≤ y * cElems ds :=
            Int.mul_le_mul_of_nonneg_right (by omega) (by omega)
          rw [add_mul, one_mul] at this
          omega
        · have : (y + 1) * cElems ds ≤ x * cElems ds :=
            Int.mul_le_mul_of_nonneg_right (by omega) (by omega)
          rw [add_mul, one_mul] at this
          omega
      subst hxy
      rw [ih bs hbs (by omega)]

theorem cIndex_surjective (dims : List Int) (h : ∀ d ∈ dims, 0 < d) (p : Int) (h0 : 0 ≤ p)
    (h1 : p < cElems dims) : ∃ a, InRange dims a ∧ cIndex dims a = p := by
  induction dims generalizing p with
  | nil => exact ⟨[], .nil, by simp [cElems] at h1; simp [cIndex]; omega⟩
  | cons d ds ih =>
    have hpos := cElems_pos ds (fun x hx => h x (by simp [hx]))
    obtain ⟨as, has, he⟩ := ih (fun x hx => h x (by simp [hx])) (p % cElems ds)
      (Int.emod_nonneg _ hpos.ne') (Int.emod_lt_of_pos _ hpos)
    refine ⟨p / cElems ds :: as, .cons ⟨Int.ediv_nonneg h0 hpos.le, ?_⟩ has, ?_⟩
    · rw [cElems] at h1
      exact Int.ediv_lt_of_lt_mul hpos h1
    · rw [cIndex, he]
      have := Int.mul_ediv_add_emod p (cElems ds)
      rw [mul_comm] at this
      exact this

/-! ### rounding -/

theorem ldiff_add_and (x m : Nat) : Nat.ldiff x m + (x &&& m) = x := by
  induction x using Nat.binaryRec generalizing m with
  | zero =>
    have : Nat.ldiff 0 m = 0 := by
      apply Nat.eq_of_testBit_eq
      intro i
      simp [Nat.testBit_ldiff]
    simp [this]
  | bit b n ih =>
    have hm := Nat.bit_bodd_div2 m
    rw [← hm]
    generalize m.bodd = c
    generalize m.div2 = k
    rw [Nat.ldiff_bit, Nat.land_bit]
    have := ih k
    simp only [Nat.bit_val]
    cases b <;> cases c <;> simp <;> omega

theorem roundUp_eq (size cl : Int) (hs : 0 ≤ size) (hc : 1 ≤ cl) :
    roundUp size cl = ((size + cl - 1).toNat : Int) -
      (((size + cl - 1).toNat &&& (cl - 1).toNat : Nat) : Int) := by
  unfold roundUp
  obtain ⟨x, hx⟩ := Int.eq_ofNat_of_zero_le (show 0 ≤ size + cl - 1 by omega)
  obtain ⟨m, hm⟩ := Int.eq_ofNat_of_zero_le (show 0 ≤ cl - 1 by omega)
  rw [hx, hm]
  show ((Nat.ldiff x m : Nat) : Int) = _
  have := ldiff_add_and x m
  simp only [Int.toNat_natCast]
  omega

theorem roundUp_ge (size cl : Int) (hs : 0 ≤ size) (hc : 1 ≤ cl) : size ≤ roundUp size cl := by
  rw [roundUp_eq size cl hs hc]
  have := @Nat.and_le_right (size + cl - 1).toNat (cl - 1).toNat
  omega

theorem roundUp_dvd (size : Int) (k : Nat) (hs : 0 ≤ size) :
    ((2 ^ k : Nat) : Int) ∣ roundUp size ((2 ^ k : Nat) : Int) := by
  have hk : 1 ≤ 2 ^ k := Nat.one_le_two_pow
  rw [roundUp_eq size _ hs (by exact_mod_cast hk)]
  have : (((2 ^ k : Nat) : Int) - 1).toNat = 2 ^ k - 1 := by omega
  rw [this, Nat.and_two_pow_sub_one_eq_mod]
  generalize (size + ((2 ^ k : Nat) : Int) - 1).toNat = x
  have h1 := Nat.mod_add_div x (2 ^ k)
  refine ⟨(x / 2 ^ k : Nat), ?_⟩
  have : (x : Int) = ((x % 2 ^ k : Nat) : Int) + ((2 ^ k : Nat) : Int) * ((x / 2 ^ k : Nat) : Int) := by
    exact_mod_cast h1.symm
  omega

theorem roundUp_lt (size : Int) (k : Nat) (hs : 0 ≤ size) :
    roundUp size ((2 ^ k : Nat) : Int) < size + ((2 ^ k : Nat) : Int) := by
  have hk : 1 ≤ 2 ^ k := Nat.one_le_two_pow
  rw [roundUp_eq size _ hs (by exact_mod_cast hk)]
  omega

/-! ### base offsets -/

/-- Sizes in bytes are not negative. -/
def SizesOk (arrs : List Arr) : Prop := ∀ a ∈ arrs, 0 ≤ a.bytes

theorem assignBases_ge (spacing cl base : Int) (arrs : List Arr) (hs : 0 ≤ spacing) (hc : 1 ≤ cl)
    (h : SizesOk arrs) (n : String) (b : Int) (hb : (n, b) ∈ assignBases spacing cl base arrs) :
    base ≤ b := by
  induction arrs generalizing base with
  | nil => simp [assignBases] at hb
  | cons a as ih =>
    rw [assignBases] at hb
    have h1 := h a (by simp)
    have h2 := roundUp_ge (a.bytes + spacing) cl (by omega) hc
    rcases List.mem_cons.1 hb with hb | hb
    · simp only [Prod.mk.injEq] at hb
      omega
    · have := ih _ (fun x hx => h x (by simp [hx])) hb
      omega

theorem mem_assignBases_name (spacing cl base : Int) (arrs : List Arr) (n : String) (b : Int)
    (hb : (n, b) ∈ assignBases spacing cl base arrs) : ∃ a ∈ arrs, a.name = n := by
  induction arrs generalizing base with
  | nil => simp [assignBases] at hb
  | cons a as ih =>
    rw [assignBases] at hb
    rcases List.mem_cons.1 hb with hb | hb
    · simp only [Prod.mk.injEq] at hb
      exact ⟨a, by simp, hb.1.symm⟩
    · obtain ⟨x, hx, e⟩ := ih _ hb
      exact ⟨x, by simp [hx], e⟩

theorem assignBases_disjoint (spacing cl base : Int) (arrs : List Arr) (hs : 0 ≤ spacing)
    (hc : 1 ≤ cl) (h : SizesOk arrs) (hn : (arrs.map (·.name)).Nodup) (v w : Arr) (hv : v ∈ arrs)
    (hw : w ∈ arrs) (hvw : v.name ≠ w.name) (b c : Int)
    (hb : (v.name, b) ∈ assignBases spacing cl base arrs)
    (hcw : (w.name, c) ∈ assignBases spacing cl base arrs) :
    b + v.bytes ≤ c ∨ c + w.bytes ≤ b := by
  induction arrs generalizing base with
  | nil => simp at hv
  | cons a as ih =>
    rw [assignBases] at hb hcw
    have h1 := h a (by simp)
    have h2 := roundUp_ge (a.bytes + spacing) cl (by omega) hc
    have h' : SizesOk as := fun x hx => h x (by simp [hx])
    rw [List.map_cons, List.nodup_cons] at hn
    have notin : ∀ x : Arr, ∀ c, x.name = a.name →
        (x.name, c) ∈ assignBases spacing cl (base + roundUp (a.bytes + spacing) cl) as → False := by
      intro x c hx hm
      obtain ⟨y, hy, e⟩ := mem_assignBases_name _ _ _ _ _ _ hm
      exact hn.1 (List.mem_map.2 ⟨y, hy, e.trans hx⟩)
    have isA : ∀ x : Arr, x ∈ a :: as → x.name = a.name → x = a := by
      intro x hx he
      rcases List.mem_cons.1 hx with rfl | hx
      · rfl
      · exact absurd (List.mem_map.2 ⟨x, hx, he⟩) hn.1
    rcases List.mem_cons.1 hb with hb | hb
    · simp only [Prod.mk.injEq] at hb
      have := isA v hv hb.1
      subst this
      rcases List.mem_cons.1 hcw with hcw | hcw
      · simp only [Prod.mk.injEq] at hcw
        exact absurd hcw.1.symm hvw
      · have := assignBases_ge _ _ _ _ hs hc h' _ _ hcw
        left; omega
    · rcases List.mem_cons.1 hcw with hcw | hcw
      · simp only [Prod.mk.injEq] at hcw
        have := isA w hw hcw.1
        subst this
        have := assignBases_ge _ _ _ _ hs hc h' _ _ hb
        right; omega
      · rcases List.mem_cons.1 hv with rfl | hv
        · exact absurd hb (fun hb => notin v b rfl hb)
        · rcases List.mem_cons.1 hw with rfl | hw
          · exact absurd hcw (fun hb => notin w c rfl hb)
          · exact ih _ h' hn.2 hv hw hb hcw

theorem assignBases_dvd (spacing base : Int) (k : Nat) (arrs : List Arr) (hs : 0 ≤ spacing)
    (h : SizesOk arrs) (hbase : ((2 ^ k : Nat) : Int) ∣ base) (n : String) (b : Int)
    (hb : (n, b) ∈ assignBases spacing ((2 ^ k : Nat) : Int) base arrs) :
    ((2 ^ k : Nat) : Int) ∣ b := by
  induction arrs generalizing base with
  | nil => simp [assignBases] at hb
  | cons a as ih =>
    rw [assignBases] at hb
    have h1 := h a (by simp)
    rcases List.mem_cons.1 hb with hb | hb
    · simp only [Prod.mk.injEq] at hb
      rwa [hb.2]
    · exact ih _ (fun x hx => h x (by simp [hx]))
        (Int.dvd_add hbase (roundUp_dvd _ k (by omega))) hb

theorem assignBases_names (spacing cl base : Int) (arrs : List Arr) :
    (assignBases spacing cl base arrs).map Prod.fst = arrs.map (·.name) := by
  induction arrs generalizing base with
  | nil => rfl
  | cons a as ih => simp [assignBases, ih]

instance : Std.Total (fun a b : Arr => a.name ≤ b.name) := ⟨fun a b => le_total a.name b.name⟩
instance : IsTrans Arr (fun a b : Arr => a.name ≤ b.name) := ⟨fun _ _ _ h1 h2 => le_trans h1 h2⟩

theorem sort_perm (arrs arrs' : List Arr) (hp : arrs.Perm arrs')
    (hn : (arrs.map (·.name)).Nodup) :
    arrs.insertionSort (fun a b => a.name ≤ b.name) =
      arrs'.insertionSort (fun a b => a.name ≤ b.name) := by
  apply List.Perm.eq_of_pairwise _ (List.pairwise_insertionSort _ _) (List.pairwise_insertionSort _ _)
  · exact ((List.perm_insertionSort _ _).trans hp).trans (List.perm_insertionSort _ _).symm
  · intro a b ha hb h1 h2
    have ha' : a ∈ arrs := (List.perm_insertionSort _ _).mem_iff.1 ha
    have hb' : b ∈ arrs := hp.mem_iff.2 ((List.perm_insertionSort _ _).mem_iff.1 hb)
    exact List.inj_on_of_nodup_map hn ha' hb' (le_antisymm h1 h2)

theorem lookup_mem {α β} [BEq α] [LawfulBEq α] (l : List (α × β)) (a : α) (b : β)
    (h : l.lookup a = some b) : (a, b) ∈ l := by
  induction l with
  | nil => simp at h
  | cons p l ih =>
    obtain ⟨x, y⟩ := p
    rw [List.lookup_cons] at h
    split at h
    · rename_i he
      simp at he h
      simp [he, h]
    · simp [ih h]

/-! ### symbolic flattening and offsets -/

theorem flattenSymFrom_eval (env : String → Option Int) (dims : List Int) (d : Nat) (acc : Sym)
    (as : List Sym) (z : Int) (h : (flattenSymFrom dims d acc as).eval env = some z) :
    ∃ a0 vals, acc.eval env = some a0 ∧
      List.Forall₂ (fun s v => Sym.eval env s = some v) as vals ∧ z = flattenFrom dims d a0 vals := by
  induction as generalizing d acc with
  | nil => exact ⟨z, [], h, .nil, rfl⟩
  | cons a as ih =>
    rw [flattenSymFrom] at h
    obtain ⟨a0, vals, h1, h2, h3⟩ := ih _ _ h
    simp only [Sym.eval, Option.bind_eq_bind, Option.bind_some] at h1
    cases hacc : acc.eval env with
    | none => simp [hacc] at h1
    | some x =>
      cases ha : a.eval env with
      | none => simp [hacc, ha] at h1
      | some y =>
        simp [hacc, ha] at h1
        refine ⟨x, y :: vals, rfl, .cons ha h2, ?_⟩
        rw [flattenFrom, h3, ← h1]

/-- Where one compiled offset expression comes from. -/
def FromAccess (vars : List Arr) (bases : List (String × Int)) (accs : List Access) (e : Sym) : Prop :=
  ∃ v ∈ vars, ∃ a ∈ accs, a.arr = v.name ∧ ∃ b, bases.lookup v.name = some b ∧
    e = .add (.mul (flattenSymFrom v.dims 0 (.num 0) a.subs) (.num v.elem)) (.num b)

theorem find_unique (vars : List Arr) (hn : (vars.map (·.name)).Nodup) (v : Arr) (hv : v ∈ vars) :
    vars.find? (fun w => w.name == v.name) = some v := by
  induction vars with
  | nil => simp at hv
  | cons w ws ih =>
    rw [List.map_cons, List.nodup_cons] at hn
    rcases List.mem_cons.1 hv with rfl | hv
    · simp
    · have : w.name ≠ v.name := fun e => hn.1 (e ▸ List.mem_map.2 ⟨v, hv, rfl⟩)
      rw [List.find?_cons_of_neg (by simpa using this)]
      exact ih hn.2 hv

theorem offsetExprs_from (vars : List Arr) (bases : List (String × Int)) (counters : List String)
    (accs : List Access) (hn : (vars.map (·.name)).Nodup) (es : List Sym)
    (h : offsetExprs vars bases counters accs = .ok es) :
    ∀ e ∈ es, FromAccess vars bases accs e := by
  unfold offsetExprs at h
  have hsub : ∀ va ∈ vars.flatMap
      (fun v => (accs.filter (fun a => a.arr == v.name)).map (fun a => (v, a))),
      va.1 ∈ vars ∧ va.2 ∈ accs ∧ va.2.arr = va.1.name := by
    intro va hva
    simp only [List.mem_flatMap, List.mem_map, List.mem_filter, beq_iff_eq] at hva
    obtain ⟨v, hv, a, ⟨ha, he⟩, rfl⟩ := hva
    exact ⟨hv, ha, he⟩
  revert h hsub
  generalize vars.flatMap
      (fun v => (accs.filter (fun a => a.arr == v.name)).map (fun a => (v, a))) = l
  induction l generalizing es with
  | nil =>
    intro h _
    simp [pure, Except.pure] at h
    subst h
    simp
  | cons va l ih =>
    intro h hsub
    rw [List.foldrM_cons] at h
    simp only [bind, Except.bind] at h
    split at h
    · simp at h
    · rename_i rest hrest
      obtain ⟨h1, h2, h3⟩ := hsub va (by simp)
      have ih' := ih rest hrest (fun x hx => hsub x (by simp [hx]))
      simp only [accessToSympy, find_unique vars hn _ h1] at h
      split at h
      · split at h
        · simp at h
        · rename_i b hb
          simp at h
          subst h
          intro e he
          rcases List.mem_cons.1 he with rfl | he
          · exact ⟨va.1, h1, va.2, h2, h3, b, hb, rfl⟩
          · exact ih' e he
      · simp at h
        subst h
        exact ih'

theorem evalAll_mem (env : String → Option Int) (es : List Sym) (vs : List Int)
    (h : evalAll env es = .ok vs) : List.Forall₂ (fun e v => Sym.eval env e = some v) es vs := by
  induction es generalizing vs with
  | nil => simp [evalAll] at h; subst h; exact .nil
  | cons e es ih =>
    rw [evalAll] at h
    split at h
    · simp at h
    · rename_i v hv
      simp only [bind, Except.bind] at h
      split at h
      · simp at h
      · rename_i r hr
        simp at h
        subst h
        exact .cons hv (ih r hr)

/-! ### AST rewriting -/

/-- `s` evaluates to `v`. -/
abbrev Ev (env : String → Option Int) : Sym → Int → Prop := fun s v => s.eval env = some v

theorem foldl_mul_eval (env : String → Option Int) (x : Sym) (a : Int) (xs : List Sym) (vs : List Int)
    (hx : Ev env x a) (h : List.Forall₂ (Ev env) xs vs) :
    Ev env (xs.foldl .mul x) (a * cElems vs) := by
  induction h generalizing x a with
  | nil => simpa [cElems] using hx
  | @cons y b ys bs hy _ ih =>
    rw [List.foldl_cons, cElems, ← mul_assoc]
    refine ih (.mul x y) (a * b) ?_
    unfold Ev at *
    simp [Sym.eval, hx, hy]

theorem foldl_add_eval (env : String → Option Int) (x : Sym) (a : Int) (xs : List Sym) (vs : List Int)
    (hx : Ev env x a) (h : List.Forall₂ (Ev env) xs vs) :
    Ev env (xs.foldl .add x) (a + vs.sum) := by
  induction h generalizing x a with
  | nil => simpa using hx
  | @cons y b ys bs hy _ ih =>
    rw [List.foldl_cons, List.sum_cons, ← add_assoc]
    refine ih (.add x y) (a + b) ?_
    unfold Ev at *
    simp [Sym.eval, hx, hy]

/-- Values of the summands of `transform_multidim_to_1d_ref`. -/
def summandVals (dimsRev : List Int) : Nat → List Int → List Int
  | _, [] => []
  | i, a :: as => a * cElems (dimsRev.take i) :: summandVals dimsRev (i + 1) as

theorem summands_eval (env : String → Option Int) (dimsRev : List Sym) (dv : List Int)
    (hd : List.Forall₂ (Ev env) dimsRev dv) (i : Nat) (ss : List Sym) (sv : List Int)
    (hs : List.Forall₂ (Ev env) ss sv) (hlen : i + ss.length ≤ dimsRev.length ∨ dimsRev ≠ []) :
    ∃ l, summands dimsRev i ss = some l ∧ List.Forall₂ (Ev env) l (summandVals dv i sv) := by
  induction hs generalizing i with
  | nil => exact ⟨[], by cases i <;> rfl, .nil⟩
  | @cons s v ss vs hsv htl ih =>
    have hne : dimsRev ≠ [] := by
      rcases hlen with h | h
      · intro e; subst e; simp at h
      · exact h
    obtain ⟨l, hl, hl2⟩ := ih (i + 1) (Or.inr hne)
    cases i with
    | zero =>
      refine ⟨s :: l, by simp only [summands]; rw [hl]; rfl, ?_⟩
      rw [summandVals]
      refine .cons ?_ hl2
      simpa [cElems] using hsv
    | succ i =>
      have hred : ∃ p, reduceSym .mul (dimsRev.take (i + 1)) = some p ∧
          Ev env p (cElems (dv.take (i + 1))) := by
        cases hd with
        | nil => exact absurd rfl hne
        | @cons x a xs as hx hxs =>
          refine ⟨(xs.take i).foldl .mul x, rfl, ?_⟩
          rw [List.take_succ_cons, cElems]
          exact foldl_mul_eval env x a _ _ hx (List.forall₂_take i hxs)
      obtain ⟨p, hp, hpv⟩ := hred
      refine ⟨.mul s p :: l, by simp only [summands]; rw [hp, hl]; rfl, ?_⟩
      rw [summandVals]
      refine .cons ?_ hl2
      unfold Ev at *
      simp [Sym.eval, hsv, hpv]

theorem summandVals_shift (D : Int) (ds : List Int) (i : Nat) (as : List Int) :
    (summandVals (D :: ds) (i + 1) as).sum = D * (summandVals ds i as).sum := by
  induction as generalizing i with
  | nil => simp [summandVals]
  | cons a as ih =>
    rw [summandVals, summandVals, List.sum_cons, List.sum_cons, ih, List.take_succ_cons, cElems]
    ring

theorem cElems_append (a b : List Int) : cElems (a ++ b) = cElems a * cElems b := by
  induction a with
  | nil => simp [cElems]
  | cons x a ih => simp [cElems, ih, mul_assoc]

theorem cIndex_snoc (ds as : List Int) (D a : Int) (h : as.length = ds.length) :
    cIndex (ds ++ [D]) (as ++ [a]) = cIndex ds as * D + a := by
  induction ds generalizing as with
  | nil =>
    cases as with
    | nil => simp [cIndex, cElems]
    | cons x xs => simp at h
  | cons d ds ih =>
    cases as with
    | nil => simp at h
    | cons x xs =>
      simp only [List.cons_append, cIndex]
      rw [ih xs (by simpa using h), cElems_append]
      simp [cElems]
      ring

theorem summandVals_sum (dimsRev asRev : List Int) (h : asRev.length = dimsRev.length) :
    (summandVals dimsRev 0 asRev).sum = cIndex dimsRev.reverse asRev.reverse := by
  induction dimsRev generalizing asRev with
  | nil => cases asRev with
    | nil => rfl
    | cons a as => simp at h
  | cons D ds ih => cases asRev with
    | nil => simp at h
    | cons a as =>
      have h' : as.length = ds.length := by simpa using h
      rw [summandVals, List.sum_cons, summandVals_shift, ih as h', List.reverse_cons,
        List.reverse_cons, cIndex_snoc _ _ _ _ (by simpa using h')]
      simp [cElems]
      ring

theorem subsRev_length_pos (r : CRef) (s : Sym) : (CRef.sub r s).subsRev ≠ [] := by
  simp [CRef.subsRev]

end Verif.Layout
