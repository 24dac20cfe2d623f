import Verif.Model.CodeGen
import Verif.Spec.CLib
import Verif.Lemmas.Text
import Mathlib.Data.List.Nodup
import Mathlib.Data.List.Forall2

/-!
C53 and C71: generated code.
-/

namespace Verif.CodeGen

open Verif.Layout

/-! ### C53 -/

/-- Type of an argument among the variables of the main program. -/
def argType (vars : List Decl) : Arg → Option Ty
  | .id x => (vars.find? (·.name = x)).map Decl.type
  | .addr x => match (vars.find? (·.name = x)).map Decl.type with
    | some (.val t) => some (.ptr t)
    | _ => none

/-- The parameter that takes an argument: variables passed by value have the name of the parameter, variables passed by
address the name without the last underscore. -/
def Takes (a : Arg) (p : Decl) : Prop :=
  match a with
  | .id x => p.name = x
  | .addr x => p.name = x ++ "_"

theorem find_name (vars : List Decl) (hn : (vars.map Decl.name).Nodup) (d : Decl) (hd : d ∈ vars) :
    vars.find? (·.name = d.name) = some d := by
  induction vars with
  | nil => cases hd
  | cons v vs ih =>
    rw [List.map_cons, List.nodup_cons] at hn
    rw [List.find?_cons]
    rcases List.mem_cons.mp hd with rfl | hd
    · simp
    · have : ¬ v.name = d.name := by
        intro he
        exact hn.1 (List.mem_map.mpr ⟨d, hd, he.symm⟩)
      simp [this, ih hn.2 hd]

theorem buildArrays_eq (items : List Item) : (buildArrays items true).map (fun d => (d.name, d.type)) =
    (buildArrays items false).map (fun d => (d.name, d.type)) := by
  simp only [buildArrays, List.map_map]
  apply List.map_congr_left
  intro d _
  simp only [Function.comp_apply, Prod.mk.injEq, true_and]
  unfold toMalloc
  split <;> rfl

theorem buildConsts_eq (t : List String) (consts : List String) (i j : Nat) :
    (buildConstsFrom t true i consts).map (fun d => (d.name, d.type)) =
      (buildConstsFrom t false j consts).map (fun d => (d.name, d.type)) := by
  induction consts generalizing i j with
  | nil => rfl
  | cons k ks ih => simp [buildConstsFrom, ih (i + 1) (j + 1)]

/-- C53: arguments and parameters correspond one to one: the variables and, given that variables and constants have
different names, the types agree in order. -/
theorem C53_call (items : List Item) (indexType consts : List String)
    (hn : ((mainDecls items indexType consts).map Decl.name).Nodup) :
    List.Forall₂ (fun a p => Takes a p ∧ argType (mainDecls items indexType consts) a = some p.type)
      (kernelCall items indexType consts) (kernelParams items indexType consts) := by
  unfold kernelCall kernelParams
  refine List.rel_append (List.rel_append ?_ ?_) ?_
  · have h := buildArrays_eq items
    have hm : ∀ d ∈ buildArrays items true, d ∈ mainDecls items indexType consts := by
      intro d hd
      simp [mainDecls, hd]
    revert h hm
    generalize buildArrays items true = as
    generalize buildArrays items false = bs
    intro h hm
    induction as generalizing bs with
    | nil =>
      cases bs with
      | nil => exact .nil
      | cons b bs => simp at h
    | cons a as ih =>
      cases bs with
      | nil => simp at h
      | cons b bs =>
        simp only [List.map_cons, List.cons.injEq, Prod.mk.injEq] at h
        refine .cons ⟨h.1.1.symm, ?_⟩ (ih bs h.2 fun d hd => hm d (by simp [hd]))
        simp only [argType, find_name _ hn a (hm a (by simp)), Option.map_some, h.1.2]
  · have hm : ∀ d ∈ getScalars items false "", { d with init := Init.number } ∈ mainDecls items indexType consts := by
      intro d hd
      simp only [mainDecls, scalarInits, List.mem_append, List.mem_map]
      exact Or.inr ⟨d, hd, rfl⟩
    unfold getScalars at hm ⊢
    revert hm
    generalize scalarDecls items = ss
    intro hm
    induction ss with
    | nil => exact .nil
    | cons s ss ih =>
      refine .cons ⟨?_, ?_⟩ (ih fun d hd => hm d (by simp only [List.map_cons, List.mem_cons]; exact Or.inr hd))
      · simp [Takes]
      · have hs := hm ⟨s.1 ++ "", .val s.2, .none⟩ (by simp)
        have := find_name _ hn _ hs
        simp only at this
        have e : ∀ n : String, n ++ "" = n := by simp
        rw [e] at this
        simp [argType, this]
  · have h := buildConsts_eq indexType consts 2 2
    have hm : ∀ d ∈ buildConstsFrom indexType true 2 consts, d ∈ mainDecls items indexType consts := by
      intro d hd
      simp [mainDecls, buildConsts, hd]
    unfold buildConsts
    revert h hm
    generalize buildConstsFrom indexType true 2 consts = as
    generalize buildConstsFrom indexType false 2 consts = bs
    intro h hm
    induction as generalizing bs with
    | nil =>
      cases bs with
      | nil => exact .nil
      | cons b bs => simp at h
    | cons a as ih =>
      cases bs with
      | nil => simp at h
      | cons b bs =>
        simp only [List.map_cons, List.cons.injEq, Prod.mk.injEq] at h
        refine .cons ⟨h.1.1.symm, ?_⟩ (ih bs h.2 fun d hd => hm d (by simp [hd]))
        simp only [argType, find_name _ hn a (hm a (by simp)), Option.map_some, h.1.2]

/-- C53: the kinds of arguments are in the order arrays, scalars, constants, each in the order of the kernel or of the
constants. -/
theorem C53_order (items : List Item) (indexType consts : List String) : kernelCall items indexType consts =
    ((items.filterMap fun | .decl n (.arr _ _) => some n | _ => none).map .id) ++
    ((items.filterMap fun | .decl n (.base _) => some n | _ => none).map .addr) ++ consts.map .id := by
  have h1 : ∀ its : List Item, (arrayDecls its).map Prod.fst = its.filterMap fun | .decl n (.arr _ _) => some n | _ => none := by
    intro its
    unfold arrayDecls
    rw [List.map_filterMap]
    congr 1
    funext i
    match i with
    | .decl n (.arr d t) => rfl
    | .decl n (.base t) => rfl
    | .other => rfl
  have h2 : ∀ its : List Item, (scalarDecls its).map Prod.fst = its.filterMap fun | .decl n (.base _) => some n | _ => none := by
    intro its
    unfold scalarDecls
    rw [List.map_filterMap]
    congr 1
    funext i
    match i with
    | .decl n (.arr d t) => rfl
    | .decl n (.base t) => rfl
    | .other => rfl
  have h3 : ∀ i, (buildConstsFrom indexType true i consts).map (fun d => d.name) = consts := by
    induction consts with
    | nil => intro i; rfl
    | cons k ks ih => intro i; simp [buildConstsFrom, ih (i + 1)]
  unfold kernelCall buildConsts
  rw [← h1, ← h2]
  congr 1
  · congr 1
    · simp only [buildArrays, List.map_map]; rfl
    · simp only [getScalars, List.map_map]
      apply List.map_congr_left
      intro d _
      simp
  · conv_rhs => rw [← h3 2]
    rw [List.map_map]
    rfl

/-- C53: the kernel function reads each scalar from the parameter that takes its address. -/
theorem C53_scalars (items : List Item) :
    (scalarCopies items).map Prod.snd = (getScalars items true "_").map Decl.name ∧
    List.Forall₂ (fun c a => a = Arg.addr c.1) (scalarCopies items) ((getScalars items false "").map fun d => .addr d.name) := by
  constructor
  · simp only [scalarCopies, getScalars, List.map_map]
    apply List.map_congr_left
    intro d _
    simp
  · simp only [scalarCopies]
    generalize getScalars items false "" = l
    induction l with
    | nil => exact .nil
    | cons d ds ih => exact .cons rfl ih

/-- `double a[M][N]; double s; double b[N];` with constants M and N. -/
def sample : List Item :=
  [.decl "a" (.arr (.var "M") (.arr (.var "N") (.base "double"))), .decl "s" (.base "double"),
    .decl "b" (.arr (.var "N") (.base "double")), .other]

example : kernelCall sample ["int"] ["M", "N"] = [.id "a", .id "b", .addr "s", .id "M", .id "N"] ∧
    (kernelParams sample ["int"] ["M", "N"]).map (fun d => (d.name, d.type)) =
      [("a", .ptr (.base "double")), ("b", .ptr (.base "double")), ("s_", .ptr (.base "double")),
        ("M", .index ["int"]), ("N", .index ["int"])] ∧
    ((mainDecls sample ["int"] ["M", "N"]).map Decl.name).Nodup := by decide +kernel

/-- C53, negation: distinct variables can lead to parameters of the same name, which is not C. -/
theorem C53_negation_names : ∃ items indexType consts, ((mainDecls items indexType consts).map Decl.name).Nodup ∧
    ¬ ((kernelParams items indexType consts).map Decl.name).Nodup :=
  ⟨[.decl "s" (.base "double"), .decl "s_" (.arr (.var "N") (.base "double"))], ["int"], ["N"], by decide +kernel, by decide +kernel⟩

/-- C53: names of parameters differ if no name of a scalar, followed by an underscore, is used. -/
theorem C53_names (items : List Item) (indexType consts : List String)
    (hn : ((mainDecls items indexType consts).map Decl.name).Nodup)
    (hu : ∀ s ∈ scalarDecls items, ∀ d ∈ mainDecls items indexType consts, d.name ≠ s.1 ++ "_") :
    ((kernelParams items indexType consts).map Decl.name).Nodup := by
  have ha : (buildArrays items false).map Decl.name = (buildArrays items true).map Decl.name := by
    have := congrArg (List.map Prod.fst) (buildArrays_eq items)
    simpa [List.map_map, Function.comp_def] using this.symm
  have hc : (buildConsts indexType false consts).map Decl.name = (buildConsts indexType true consts).map Decl.name := by
    have := congrArg (List.map Prod.fst) (buildConsts_eq indexType consts 2 2)
    simpa [List.map_map, Function.comp_def, buildConsts] using this.symm
  have hs : (scalarInits items).map Decl.name = (scalarDecls items).map Prod.fst := by
    simp only [scalarInits, getScalars, List.map_map]
    apply List.map_congr_left
    intro d _
    simp
  have hp : (getScalars items true "_").map Decl.name = (scalarDecls items).map fun s => s.1 ++ "_" := by
    simp only [getScalars, List.map_map]
    rfl
  unfold mainDecls at hn
  rw [List.map_append, List.map_append, List.nodup_append, List.nodup_append] at hn
  obtain ⟨⟨n1, n2, n3⟩, n4, n5⟩ := hn
  rw [hs] at n4 n5
  unfold kernelParams
  rw [List.map_append, List.map_append, List.nodup_append, List.nodup_append, ha, hc, hp]
  refine ⟨⟨n2, ?_, ?_⟩, n1, ?_⟩
  · have : (scalarDecls items).map (fun s => s.1 ++ "_") = ((scalarDecls items).map Prod.fst).map (fun n => n ++ "_") := by
      rw [List.map_map]; rfl
    rw [this]
    refine List.Nodup.map ?_ n4
    intro x y hxy
    have hxy' : x ++ "_" = y ++ "_" := hxy
    have := congrArg String.toList hxy'
    rw [String.toList_append, String.toList_append] at this
    exact String.toList_inj.mp (List.append_cancel_right this)
  · intro x hx y hy he
    obtain ⟨d, hd, rfl⟩ := List.mem_map.mp hx
    obtain ⟨s, hs', rfl⟩ := List.mem_map.mp hy
    exact hu s hs' d (by simp [mainDecls, hd]) he
  · intro x hx y hy he
    rcases List.mem_append.mp hx with hx | hx
    · exact n3 y hy x hx he.symm
    · obtain ⟨s, hs', rfl⟩ := List.mem_map.mp hx
      obtain ⟨d, hd, rfl⟩ := List.mem_map.mp hy
      exact hu s hs' d (by simp [mainDecls, hd]) he.symm

/-! ### C71 and C72 -/

theorem number_parse (s : List Char) (n : Nat) (b : Bool) (m : Nat) (hd : ∀ c ∈ s, Text.isDigit c = true)
    (h : Text.parseDigits n b s = some m) : CLib.number n s = m := by
  induction s generalizing n b with
  | nil =>
    simp only [Text.parseDigits] at h
    cases b <;> simp_all [CLib.number]
  | cons c cs ih =>
    have hc := hd c (by simp)
    rw [Text.parseDigits, if_pos hc] at h
    have hc' : 48 ≤ c.toNat ∧ c.toNat ≤ 57 := by simpa [Text.isDigit] using hc
    rw [CLib.number, if_pos hc']
    exact ih _ _ (fun x hx => hd x (by simp [hx])) h

theorem signed_showInt (z : Int) : CLib.signed (Text.showInt z) = z := by
  have hp := number_parse (Text.showNat z.natAbs) 0 false z.natAbs (Text.showNat_digits _) (Text.parseDigits_showNat _)
  have hd := Text.showNat_digits z.natAbs
  unfold Text.showInt
  split
  · rename_i hz
    simp only [CLib.signed, hp]
    omega
  · rename_i hz
    have : CLib.signed (Text.showNat z.natAbs) = (z.natAbs : Int) := by
      revert hp hd
      generalize Text.showNat z.natAbs = s
      intro hp hd
      unfold CLib.signed
      split
      · rename_i t
        exact absurd (hd '-' (by simp)) (by decide)
      · exact congrArg (fun n : Nat => (n : Int)) hp
    rw [this]
    omega

theorem atoi_showInt (z : Int) (h1 : -2 ^ 31 ≤ z) (h2 : z < 2 ^ 31) : CLib.atoi (Text.showInt z) = z := by
  unfold CLib.atoi CLib.wrap
  rw [signed_showInt]
  omega

/-- The value that a variable of the main program gets from the arguments. -/
def valueOf (vars : List Decl) (args : List (List Char)) (k : String) : Option Int :=
  match (vars.find? (·.name = k)).map Decl.init with
  | some (.argv i) => args[i]?.map CLib.atoi
  | _ => none

theorem consts_at (t : List String) (consts : List (String × Int)) (k : String) (v : Int) (h : (k, v) ∈ consts) (i : Nat) :
    ∃ j, (⟨k, .index t, .argv (i + j)⟩ : Decl) ∈ buildConstsFrom t true i (consts.map Prod.fst) ∧ consts[j]? = some (k, v) := by
  induction consts generalizing i with
  | nil => cases h
  | cons c cs ih =>
    rcases List.mem_cons.mp h with rfl | h
    · exact ⟨0, by simp [buildConstsFrom], rfl⟩
    · obtain ⟨j, h1, h2⟩ := ih h (i + 1)
      refine ⟨j + 1, ?_, by simpa using h2⟩
      rw [List.map_cons, buildConstsFrom]
      refine List.mem_cons_of_mem _ ?_
      have : i + (j + 1) = i + 1 + j := by omega
      rw [this]
      exact h1

theorem argument_of (items : List Item) (t : List String) (consts : List (String × Int)) (program reps : List Char)
    (hn : ((mainDecls items t (consts.map Prod.fst)).map Decl.name).Nodup) (k : String) (v : Int) (h : (k, v) ∈ consts) :
    valueOf (mainDecls items t (consts.map Prod.fst)) (mainArgs program reps consts) k = some (CLib.atoi (Text.showInt v)) := by
  obtain ⟨j, h1, h2⟩ := consts_at t consts k v h 2
  have hm : (⟨k, .index t, .argv (2 + j)⟩ : Decl) ∈ mainDecls items t (consts.map Prod.fst) := by
    simp [mainDecls, buildConsts, h1]
  have hf := find_name _ hn _ hm
  have hf' : List.find? (fun x : Decl => decide (x.name = k)) (mainDecls items t (consts.map Prod.fst)) =
      some ⟨k, .index t, .argv (2 + j)⟩ := hf
  unfold valueOf
  rw [hf']
  have : 2 + j = j + 1 + 1 := by omega
  simp only [Option.map_some, mainArgs, this, List.getElem?_cons_succ, List.getElem?_map, h2]

/-- C71, for constants of 32 bits: every constant of the main program has the value that it has in the analysis. -/
theorem C71_values_partial (items : List Item) (indexType : List String) (consts : List (String × Int))
    (program reps : List Char) (hn : ((mainDecls items indexType (consts.map Prod.fst)).map Decl.name).Nodup)
    (k : String) (v : Int) (h : (k, v) ∈ consts) (h1 : -2 ^ 31 ≤ v) (h2 : v < 2 ^ 31) :
    valueOf (mainDecls items indexType (consts.map Prod.fst)) (mainArgs program reps consts) k = some v := by
  rw [argument_of items indexType consts program reps hn k v h, atoi_showInt v h1 h2]

/-- C71: larger constants are never passed on. -/
theorem C71_large (items : List Item) (indexType : List String) (consts : List (String × Int))
    (program reps : List Char) (hn : ((mainDecls items indexType (consts.map Prod.fst)).map Decl.name).Nodup)
    (k : String) (v : Int) (h : (k, v) ∈ consts) (hv : v < -2 ^ 31 ∨ 2 ^ 31 ≤ v) :
    valueOf (mainDecls items indexType (consts.map Prod.fst)) (mainArgs program reps consts) k ≠ some v := by
  rw [argument_of items indexType consts program reps hn k v h]
  intro he
  have := Option.some.inj he
  unfold CLib.atoi CLib.wrap at this
  rw [signed_showInt] at this
  omega

/-- C71: the exact condition. A constant has its value in the main program if and only if it has 32 bits. -/
theorem C71_values_iff (items : List Item) (indexType : List String) (consts : List (String × Int))
    (program reps : List Char) (hn : ((mainDecls items indexType (consts.map Prod.fst)).map Decl.name).Nodup)
    (k : String) (v : Int) (h : (k, v) ∈ consts) :
    valueOf (mainDecls items indexType (consts.map Prod.fst)) (mainArgs program reps consts) k = some v ↔ -2 ^ 31 ≤ v ∧ v < 2 ^ 31 := by
  refine ⟨fun he => ?_, fun ⟨h1, h2⟩ => C71_values_partial items indexType consts program reps hn k v h h1 h2⟩
  by_contra hc
  exact C71_large items indexType consts program reps hn k v h (by omega) he

example : valueOf (mainDecls sample ["int"] ["M", "N"]) (mainArgs "prog".toList "10".toList [("M", 200), ("N", -4096)]) "N" =
    some (-4096) := by decide +kernel

/-- C71, negation: 64 bit constants are cut off, although the index type has room for them. -/
theorem C71_negation : ∃ items consts program reps, ((mainDecls items ["long"] (consts.map Prod.fst)).map Decl.name).Nodup ∧
    ("N", (3000000000 : Int)) ∈ consts ∧
    valueOf (mainDecls items ["long"] (consts.map Prod.fst)) (mainArgs program reps consts) "N" = some (-1294967296) :=
  ⟨[], [("N", 3000000000)], "prog".toList, "10".toList, by decide +kernel, by decide +kernel, by decide +kernel⟩

/-- C72, for an earlier run with constants of the same names: a main program that is reused has the values of the
present run. -/
theorem C72_reuse_partial (items : List Item) (indexType : List String) (earlier consts : List (String × Int))
    (program reps : List Char) (he : earlier.map Prod.fst = consts.map Prod.fst)
    (hn : ((mainDecls items indexType (consts.map Prod.fst)).map Decl.name).Nodup)
    (k : String) (v : Int) (h : (k, v) ∈ consts) (h1 : -2 ^ 31 ≤ v) (h2 : v < 2 ^ 31) :
    valueOf (mainUsed items indexType (some (earlier.map Prod.fst)) (consts.map Prod.fst)) (mainArgs program reps consts) k =
      some v := by
  unfold mainUsed
  rw [Option.getD_some, he]
  exact C71_values_partial items indexType consts program reps hn k v h h1 h2

theorem consts_from (t : List String) (names : List String) (j : Nat) (k : String) (h : names[j]? = some k) (i : Nat) :
    (⟨k, .index t, .argv (i + j)⟩ : Decl) ∈ buildConstsFrom t true i names := by
  induction names generalizing i j with
  | nil => simp at h
  | cons c cs ih =>
    rw [buildConstsFrom]
    cases j with
    | zero => simp at h; subst h; simp
    | succ j =>
      have : i + (j + 1) = i + 1 + j := by omega
      rw [this]
      exact List.mem_cons_of_mem _ (ih j (by simpa using h) (i + 1))

/-- C72, an exact description: in a main program that is reused, the constant that was the `j`-th one of the earlier run has
the value of the `j`-th constant of the present run, whatever its name is, and none if there are fewer. So it has its own
value just if the constant at its former place has the same value. -/
theorem C72_value_iff (items : List Item) (indexType : List String) (earlier consts : List (String × Int))
    (program reps : List Char) (hn : ((mainDecls items indexType (earlier.map Prod.fst)).map Decl.name).Nodup)
    (hv : ∀ c ∈ consts, -2 ^ 31 ≤ c.2 ∧ c.2 < 2 ^ 31) (j : Nat) (k : String) (w : Int) (hj : earlier[j]? = some (k, w))
    (v : Int) :
    valueOf (mainUsed items indexType (some (earlier.map Prod.fst)) (consts.map Prod.fst)) (mainArgs program reps consts) k =
      some v ↔ ∃ k', consts[j]? = some (k', v) := by
  have h1 := consts_from indexType (earlier.map Prod.fst) j k (by simp [hj]) 2
  have hm : (⟨k, .index indexType, .argv (2 + j)⟩ : Decl) ∈ mainDecls items indexType (earlier.map Prod.fst) := by
    simp [mainDecls, buildConsts, h1]
  have hf : List.find? (fun x : Decl => decide (x.name = k)) (mainDecls items indexType (earlier.map Prod.fst)) =
      some ⟨k, .index indexType, .argv (2 + j)⟩ := find_name _ hn _ hm
  unfold mainUsed valueOf
  rw [Option.getD_some, hf]
  have : 2 + j = j + 1 + 1 := by omega
  simp only [Option.map_some, mainArgs, this, List.getElem?_cons_succ, List.getElem?_map]
  cases hc : consts[j]? with
  | none => simp
  | some c =>
    obtain ⟨k', x⟩ := c
    obtain ⟨g1, g2⟩ := hv (k', x) (List.mem_of_getElem? hc)
    simp only [Option.map_some, atoi_showInt x g1 g2, Option.some.injEq, Prod.mk.injEq]
    constructor
    · rintro rfl; exact ⟨k', rfl, rfl⟩
    · rintro ⟨_, _, h⟩; exact h

/-- C72, an exact description: constants that the earlier run did not have are not known to the main program. -/
theorem C72_new_constants (items : List Item) (indexType : List String) (earlier consts : List (String × Int))
    (args : List (List Char)) (k : String)
    (h : k ∉ (mainDecls items indexType (earlier.map Prod.fst)).map Decl.name) :
    valueOf (mainUsed items indexType (some (earlier.map Prod.fst)) (consts.map Prod.fst)) args k = none := by
  unfold mainUsed valueOf
  rw [Option.getD_some]
  have : (mainDecls items indexType (earlier.map Prod.fst)).find? (fun x => decide (x.name = k)) = none := by
    rw [List.find?_eq_none]
    intro d hd he
    exact h (List.mem_map.2 ⟨d, hd, by simpa using he⟩)
  rw [this]
  rfl

/-- The example of the negation: N was the first constant, and M is the first one now. -/
example : ([("N", 4096)] : List (String × Int))[0]? = some ("N", 4096) ∧
    ([("M", 200), ("N", 4096)] : List (String × Int))[0]? = some ("M", 200) := ⟨rfl, rfl⟩

/-- C72, negation: after a run with the constant N, a run with M and N takes the value of M for N. -/
theorem C72_negation : ∃ (items : List Item) (indexType : List String) (earlier consts : List (String × Int)) (program reps : List Char),
    ((mainDecls items indexType (consts.map Prod.fst)).map Decl.name).Nodup ∧ ("N", (4096 : Int)) ∈ consts ∧
    valueOf (mainUsed items indexType none (consts.map Prod.fst)) (mainArgs program reps consts) "N" = some 4096 ∧
    valueOf (mainUsed items indexType (some (earlier.map Prod.fst)) (consts.map Prod.fst)) (mainArgs program reps consts) "N" =
      some 200 :=
  ⟨[.decl "b" (.arr (.var "N") (.base "double"))], ["int"], [("N", (4096 : Int))], [("M", (200 : Int)), ("N", 4096)],
    "prog".toList, "10".toList, by decide +kernel, by decide +kernel, by decide +kernel, by decide +kernel⟩

end Verif.CodeGen
