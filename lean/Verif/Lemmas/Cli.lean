import Verif.Model.Cli
import Verif.Spec.Numerals
import Mathlib.Data.List.Induction
import Mathlib.Data.List.Nodup
import Mathlib.Data.List.Count
import Mathlib.Data.List.Perm.Subperm
import Mathlib.Tactic.Linarith
import Mathlib.Tactic.Ring
import Mathlib.Tactic.IntervalCases
import Mathlib.Tactic.FieldSimp
import Mathlib.Tactic.Push
import Mathlib.Tactic.Tauto

/-!
Helper lemmas for `Verif.Props.Cli`.
-/

namespace Verif.Cli

/-! ### Rounding -/

theorem round_near (q : ℚ) : |q - roundHalfEven q| ≤ 1 / 2 := by
  unfold roundHalfEven
  have h1 := Int.floor_le q
  have h2 := Int.lt_floor_add_one q
  simp only
  rw [abs_le]
  split_ifs <;> push_cast <;> constructor <;> linarith

theorem round_bounds (q : ℚ) : ⌊q⌋ ≤ roundHalfEven q ∧ roundHalfEven q ≤ ⌊q⌋ + 1 := by
  unfold roundHalfEven
  simp only
  split_ifs <;> omega

theorem round_int (z : Int) : roundHalfEven (z : ℚ) = z := by
  unfold roundHalfEven
  simp

theorem round_mono (x y : ℚ) (h : x ≤ y) : roundHalfEven x ≤ roundHalfEven y := by
  rcases lt_or_ge ⌊x⌋ ⌊y⌋ with hlt | hge
  · have := (round_bounds x).2
    have := (round_bounds y).1
    omega
  · have he : ⌊x⌋ = ⌊y⌋ := le_antisymm (Int.floor_mono h) hge
    unfold roundHalfEven
    simp only [he]
    split_ifs <;> first | omega | (exfalso; linarith)

/-! ### Numbers in strings -/

open Numerals in
theorem isDigit_iff (c : Char) : isDigit c = true ↔ c ∈ digits := by
  constructor
  · intro h
    simp only [isDigit, Bool.and_eq_true, decide_eq_true_eq, Char.le_def] at h
    have h1 : 48 ≤ c.toNat := h.1
    have h2 : c.toNat ≤ 57 := h.2
    have hc : c = Char.ofNat c.toNat := (Char.ofNat_toNat c).symm
    rw [hc]
    interval_cases c.toNat <;> decide
  · intro h
    simp only [digits, List.mem_cons, List.not_mem_nil, or_false] at h
    rcases h with rfl | rfl | rfl | rfl | rfl | rfl | rfl | rfl | rfl | rfl <;> decide

open Numerals in
theorem digit_value (c : Char) (h : c ∈ digits) : c.toNat - '0'.toNat = digits.idxOf c := by
  simp only [digits, List.mem_cons, List.not_mem_nil, or_false] at h
  rcases h with rfl | rfl | rfl | rfl | rfl | rfl | rfl | rfl | rfl | rfl <;> decide

open Numerals in
theorem decimal_eq (ds : List Char) (h : ∀ c ∈ ds, c ∈ digits) : decimal ds = value ds := by
  have key : ∀ (ds : List Char) (n : Nat), (∀ c ∈ ds, c ∈ digits) →
      ds.foldl (fun n c => 10 * n + (c.toNat - '0'.toNat)) n = n * 10 ^ ds.length + value ds := by
    intro ds
    induction ds with
    | nil => intro n _; simp [value]
    | cons c cs ih =>
      intro n h
      rw [List.foldl_cons, ih _ (fun x hx => h x (List.mem_cons_of_mem _ hx)), digit_value c (h c (by simp)), value,
        List.length_cons, pow_succ]
      ring
  rw [decimal, key ds 0 h]
  simp

theorem takeNumber_append (ds rest : List Char) (hds : ∀ c ∈ ds, c ∈ Numerals.digits) (hne : ds ≠ [])
    (hrest : ∀ c, rest.head? = some c → c ∉ Numerals.digits) :
    takeNumber (ds ++ rest) = some (Numerals.value ds, rest) := by
  have h : ∀ c ∈ ds, isDigit c = true := fun c hc => (isDigit_iff c).2 (hds c hc)
  have hr : ∀ c, rest.head? = some c → isDigit c = false := fun c hc => by
    have := hrest c hc
    rw [← isDigit_iff] at this
    simpa using this
  rw [← decimal_eq ds hds]
  have h1 : (ds ++ rest).takeWhile isDigit = ds := by
    rw [List.takeWhile_append_of_pos (fun c hc => h c hc)]
    cases rest with
    | nil => simp
    | cons c cs => simp [hr c rfl]
  have h2 : (ds ++ rest).dropWhile isDigit = rest := by
    rw [List.dropWhile_append_of_pos (fun c hc => h c hc)]
    cases rest with
    | nil => simp
    | cons c cs => simp [hr c rfl]
  unfold takeNumber
  simp only [h1, h2, if_neg hne]

/-! ### The dictionary of constants -/

/-- Values for a name in a list of options. -/
def valuesOf (ds : List Define) (n : String) : List Int := (ds.filter (·.1 = n)).flatMap (·.2)

theorem addDefine_keys (required : List String) (dict : DefineDict) (d : Define) (n : String) :
    n ∈ (addDefine required dict d).map (·.1) ↔
      n ∈ dict.map (·.1) ∨ (d.1 = n ∧ n ∈ required) := by
  unfold addDefine
  split
  · rename_i h
    constructor
    · exact Or.inl
    · rintro (h' | ⟨rfl, h'⟩)
      · exact h'
      · exact absurd h' h
  · rename_i h
    simp only [not_not] at h
    split
    · rename_i hany
      have hmap : (dict.map fun e => if e.1 = d.1 then (e.1, e.2 ++ d.2) else e).map (·.1) =
          dict.map (·.1) := by
        rw [List.map_map]
        apply List.map_congr_left
        intro e _
        simp only [Function.comp]
        split <;> rfl
      rw [hmap]
      constructor
      · exact Or.inl
      · rintro (h' | ⟨rfl, _⟩)
        · exact h'
        · simp only [List.any_eq_true, beq_iff_eq] at hany
          obtain ⟨e, he, hed⟩ := hany
          rw [← hed]
          exact List.mem_map_of_mem he
    · simp only [List.map_append, List.map_cons, List.map_nil, List.mem_append, List.mem_singleton]
      constructor
      · rintro (h' | rfl)
        · exact Or.inl h'
        · exact Or.inr ⟨rfl, h⟩
      · rintro (h' | ⟨h', _⟩)
        · exact Or.inl h'
        · exact Or.inr h'.symm

theorem addDefine_nodup (required : List String) (dict : DefineDict) (d : Define)
    (h : (dict.map (·.1)).Nodup) : ((addDefine required dict d).map (·.1)).Nodup := by
  unfold addDefine
  split
  · exact h
  · split
    · have hmap : (dict.map fun e => if e.1 = d.1 then (e.1, e.2 ++ d.2) else e).map (·.1) =
          dict.map (·.1) := by
        rw [List.map_map]
        apply List.map_congr_left
        intro e _
        simp only [Function.comp]
        split <;> rfl
      rw [hmap]
      exact h
    · rename_i hany
      rw [List.map_append, List.nodup_append]
      refine ⟨h, by simp, ?_⟩
      intro a ha b hb
      simp only [List.map_cons, List.map_nil, List.mem_singleton] at hb
      rintro rfl
      apply hany
      simp only [List.any_eq_true, beq_iff_eq]
      obtain ⟨e, he, hea⟩ := List.mem_map.1 ha
      exact ⟨e, he, by rw [hea, hb]⟩

/-- Invariant of the loop over the options. -/
theorem foldDefine (required : List String) (prefill : DefineDict) (hpre : (prefill.map (·.1)).Nodup)
    (hreq : ∀ e ∈ prefill, e.1 ∈ required) (ds : List Define) :
    let dict := ds.foldl (addDefine required) prefill
    (dict.map (·.1)).Nodup ∧
    (∀ n, n ∈ dict.map (·.1) ↔ n ∈ prefill.map (·.1) ∨ (n ∈ required ∧ ∃ d ∈ ds, d.1 = n)) ∧
    (∀ e ∈ dict, e.1 ∈ required ∧
      ((∃ vs, (e.1, vs) ∈ prefill ∧ e.2 = vs ++ valuesOf ds e.1) ∨
       (e.1 ∉ prefill.map (·.1) ∧ e.2 = valuesOf ds e.1))) := by
  induction ds using List.reverseRecOn with
  | nil =>
    refine ⟨hpre, by simp, ?_⟩
    intro e he
    exact ⟨hreq e he, Or.inl ⟨e.2, he, by simp [valuesOf]⟩⟩
  | append_singleton ds d ih =>
    simp only at ih ⊢
    rw [List.foldl_append, List.foldl_cons, List.foldl_nil]
    obtain ⟨h1, h2, h3⟩ := ih
    generalize hdict : ds.foldl (addDefine required) prefill = dict at *
    refine ⟨addDefine_nodup required dict d h1, ?_, ?_⟩
    · intro n
      rw [addDefine_keys, h2]
      simp only [List.mem_append, List.mem_singleton]
      constructor
      · rintro ((h | ⟨h, x, hx, hxn⟩) | ⟨h, h'⟩)
        · exact Or.inl h
        · exact Or.inr ⟨h, x, Or.inl hx, hxn⟩
        · exact Or.inr ⟨h', d, Or.inr rfl, h⟩
      · rintro (h | ⟨h, x, hx | rfl, hxn⟩)
        · exact Or.inl (Or.inl h)
        · exact Or.inl (Or.inr ⟨h, x, hx, hxn⟩)
        · exact Or.inr ⟨hxn, h⟩
    · have hval : ∀ n, valuesOf (ds ++ [d]) n = valuesOf ds n ++ (if d.1 = n then d.2 else []) := by
        intro n
        by_cases h : d.1 = n <;> simp [valuesOf, List.filter_append, h]
      intro e he
      unfold addDefine at he
      split at he
      · rename_i hd
        have hne : d.1 ≠ e.1 := by rintro h; exact hd (h ▸ (h3 e he).1)
        rw [hval, if_neg hne, List.append_nil]
        exact h3 e he
      · rename_i hd
        simp only [not_not] at hd
        split at he
        · obtain ⟨e0, he0, rfl⟩ := List.mem_map.1 he
          obtain ⟨hr, hc⟩ := h3 e0 he0
          by_cases hed : e0.1 = d.1
          · rw [if_pos hed]
            refine ⟨hr, ?_⟩
            simp only [hval, hed, if_true]
            rw [hed] at hc
            rcases hc with ⟨vs, hvs, heq⟩ | ⟨hn, heq⟩
            · exact Or.inl ⟨vs, hvs, by rw [heq, List.append_assoc]⟩
            · exact Or.inr ⟨hn, by rw [heq]⟩
          · rw [if_neg hed]
            refine ⟨hr, ?_⟩
            rw [hval, if_neg (fun h => hed h.symm), List.append_nil]
            exact hc
        · rename_i hany
          have hnk : d.1 ∉ dict.map (·.1) := by
            intro hm
            apply hany
            obtain ⟨x, hx, hxd⟩ := List.mem_map.1 hm
            simp only [List.any_eq_true, beq_iff_eq]
            exact ⟨x, hx, hxd⟩
          rcases List.mem_append.1 he with he | he
          · have hne : d.1 ≠ e.1 := by rintro h; exact hnk (h ▸ List.mem_map_of_mem he)
            rw [hval, if_neg hne, List.append_nil]
            exact h3 e he
          · simp only [List.mem_singleton] at he
            subst he
            refine ⟨hd, Or.inr ⟨fun h => hnk ((h2 _).2 (Or.inl h)), ?_⟩⟩
            have hnil : valuesOf ds e.1 = [] := by
              unfold valuesOf
              rw [List.flatMap_eq_nil_iff]
              intro x hx
              exfalso
              simp only [List.mem_filter, decide_eq_true_eq] at hx
              exact hnk ((h2 _).2 (Or.inr ⟨hd, x, hx.1, hx.2⟩))
            rw [hval, hnil]
            simp

/-! ### Product -/

theorem mem_product (dict : DefineDict) (c : List (String × Int)) :
    c ∈ product dict ↔ List.Forall₂ (fun x (e : String × List Int) => x.1 = e.1 ∧ x.2 ∈ e.2) c dict := by
  induction dict generalizing c with
  | nil => simp [product]
  | cons e dict ih =>
    obtain ⟨n, vs⟩ := e
    simp only [product, List.mem_flatMap, List.mem_map]
    constructor
    · rintro ⟨v, hv, r, hr, rfl⟩
      exact List.Forall₂.cons ⟨rfl, hv⟩ ((ih r).1 hr)
    · intro h
      cases h with
      | cons hx hr =>
        rename_i x r
        obtain ⟨x1, x2⟩ := x
        simp only at hx
        obtain ⟨rfl, h2⟩ := hx
        exact ⟨_, h2, _, (ih _).2 hr, rfl⟩

theorem count_product (dict : DefineDict) (f : String → Int) :
    (product dict).count (dict.map fun e => (e.1, f e.1)) = (dict.map fun e => e.2.count (f e.1)).prod := by
  induction dict with
  | nil => simp [product]
  | cons e dict ih =>
    obtain ⟨n, vs⟩ := e
    simp only [product, List.map_cons, List.prod_cons]
    rw [← ih]
    generalize product dict = p
    generalize dict.map (fun e => (e.1, f e.1)) = c
    induction vs with
    | nil => simp
    | cons v vs ih2 =>
      rw [List.flatMap_cons, List.count_append, ih2, List.count_cons]
      by_cases h : v = f n
      · subst h
        rw [List.count_map_of_injective _ _ (List.cons_injective)]
        simp [Nat.add_mul, Nat.add_comm]
      · have : (p.map ((n, v) :: ·)).count ((n, f n) :: c) = 0 := by
          rw [List.count_eq_zero]
          simp only [List.mem_map, not_exists, not_and]
          intro r _ heq
          simp only [List.cons.injEq, Prod.mk.injEq, true_and] at heq
          exact h heq.1
        rw [this]
        simp [h]

end Verif.Cli
