import Verif.Model.Iteration
import Verif.Spec.Loops
import Mathlib.Tactic.Linarith
import Mathlib.Tactic.Ring
import Mathlib.Tactic.NormNum
import Mathlib.Algebra.BigOperators.Group.List.Basic

namespace Verif.Iteration

/-! ### cLoop -/

theorem length_cLoop_eq (s e c : Int) (hc : 0 < c) (k : Nat) (h1 : (k : Int) * c < e - s + c)
    (h2 : e - s ≤ k * c) : (cLoop s e c).length = k := by
  induction k generalizing s with
  | zero =>
    rw [cLoop, if_neg (by simp at h2; omega)]; rfl
  | succ k ih =>
    have hk : ((k + 1 : Nat) : Int) * c = k * c + c := by push_cast; ring
    rw [hk] at h1 h2
    have hkc : 0 ≤ (k : Int) * c := by positivity
    rw [cLoop, if_pos ⟨by omega, hc⟩, List.length_cons, ih (s + c) (by omega) (by omega)]

theorem length_cLoop (s e c : Int) (hc : 0 < c) (hse : s ≤ e) :
    ((cLoop s e c).length : Int) = -((-(e - s)).fdiv c) := by
  have h0 : 0 ≤ -((-(e - s)).fdiv c) := by
    rw [Int.fdiv_eq_ediv_of_nonneg _ hc.le]
    have : (-(e-s)) / c ≤ 0 := by
      have h1 := Int.ediv_le_ediv hc (show -(e-s) ≤ 0 by omega)
      simpa using h1
    omega
  obtain ⟨k, hk⟩ := Int.eq_ofNat_of_zero_le h0
  rw [length_cLoop_eq s e c hc k]
  · exact hk.symm
  · rw [← hk, Int.fdiv_eq_ediv_of_nonneg _ hc.le]
    have h1 := Int.emod_add_mul_ediv (-(e - s)) c
    have h2 := Int.emod_lt_of_pos (-(e - s)) hc
    have h3 := Int.emod_nonneg (-(e - s)) hc.ne'
    nlinarith
  · rw [← hk, Int.fdiv_eq_ediv_of_nonneg _ hc.le]
    have h1 := Int.emod_add_mul_ediv (-(e - s)) c
    have h2 := Int.emod_lt_of_pos (-(e - s)) hc
    have h3 := Int.emod_nonneg (-(e - s)) hc.ne'
    nlinarith

theorem length_cLoop' (s e c : Int) (hc : 0 < c) (hse : s - c < e) :
    ((cLoop s e c).length : Int) = -((-(e - s)).fdiv c) := by
  by_cases h : s ≤ e
  · exact length_cLoop s e c hc h
  · rw [cLoop, if_neg (by omega), Int.fdiv_eq_ediv_of_nonneg _ hc.le,
      Int.ediv_eq_zero_of_lt (by omega) (by omega)]
    rfl

theorem getElem?_cLoop (s e c : Int) (hc : 0 < c) (k : Nat) :
    (cLoop s e c)[k]? = if s + k * c < e then some (s + k * c) else none := by
  induction k generalizing s with
  | zero =>
    rw [cLoop]
    by_cases h : s < e
    · simp [h, hc]
    · simp [h]
  | succ k ih =>
    have hk : s + ((k + 1 : Nat) : Int) * c = (s + c) + k * c := by push_cast; ring
    have hkc : 0 ≤ (k : Int) * c := by positivity
    rw [cLoop, hk]
    by_cases h : s < e
    · rw [if_pos ⟨h, hc⟩, List.getElem?_cons_succ, ih]
    · rw [if_neg (by tauto), if_neg (by omega)]; simp

/-! ### flattened nests -/

theorem getElem?_flatMap_map (L : List Int) (M : List (List Int)) (k : Nat) (hM : 0 < M.length) :
    (L.flatMap (fun i => M.map (fun t => i :: t)))[k]? =
      (L[k / M.length]?).bind (fun i => (M[k % M.length]?).map (fun t => i :: t)) := by
  induction L generalizing k with
  | nil => simp
  | cons a L ih =>
    rw [List.flatMap_cons]
    by_cases hk : k < M.length
    · rw [List.getElem?_append_left (by simpa using hk)]
      rw [Nat.div_eq_of_lt hk, Nat.mod_eq_of_lt hk]
      simp
    · push Not at hk
      rw [List.getElem?_append_right (by simpa using hk), List.length_map, ih]
      have h1 : k / M.length = (k - M.length) / M.length + 1 := by
        rw [Nat.div_eq_sub_div hM hk]
      have h2 : k % M.length = (k - M.length) % M.length := by
        rw [Nat.mod_eq_sub_mod hk]
      rw [h1, h2, List.getElem?_cons_succ]

theorem length_cNest_cons (l : Loop) (ls : List Loop) :
    (cNest (l :: ls)).length = (cLoop l.start l.stop l.incr).length * (cNest ls).length := by
  simp [cNest, List.length_flatMap]

/-- A loop as in the C05 claim: increment one, at least one iteration. -/
def Unit1 (l : Loop) : Prop := l.incr = 1 ∧ l.start < l.stop

theorem Unit1.length {l : Loop} (h : Unit1 l) :
    l.length = some ((cLoop l.start l.stop l.incr).length : Int) := by
  unfold Loop.length intCeil
  rw [h.1, length_cLoop _ _ _ (by decide) h.2.le]
  simp

theorem Unit1.length_pos {l : Loop} (h : Unit1 l) :
    0 < (cLoop l.start l.stop l.incr).length := by
  rw [cLoop, if_pos ⟨h.2, by rw [h.1]; decide⟩]; simp

theorem cNest_pos (ls : List Loop) (h : ∀ l ∈ ls, Unit1 l) : 0 < (cNest ls).length := by
  induction ls with
  | nil => simp [cNest]
  | cons l ls ih =>
    rw [length_cNest_cons]
    exact Nat.mul_pos (h l (by simp)).length_pos (ih (fun x hx => h x (by simp [hx])))

/-- Product of the trip counts (in any order). -/
def tripProd (ls : List Loop) : Nat :=
  (ls.map (fun l => (cLoop l.start l.stop l.incr).length)).prod

theorem tripProd_eq (ls : List Loop) : tripProd ls = (cNest ls).length := by
  induction ls with
  | nil => simp [tripProd, cNest]
  | cons l ls ih => rw [length_cNest_cons, ← ih]; simp [tripProd]

theorem tripProd_reverse (ls : List Loop) : tripProd ls.reverse = tripProd ls := by
  simp [tripProd, List.prod_reverse]

theorem unwind_append (xs ys : List Loop) (g T : Int)
    (hx : ∀ l ∈ xs, Unit1 l) (hT : T ≠ 0) :
    unwind g T 1 (xs ++ ys) =
      (unwind g T 1 xs).bind (fun a => (unwind g (T * tripProd xs) 1 ys).map (fun b => a ++ b)) := by
  induction xs generalizing T with
  | nil => simp [unwind, tripProd]
  | cons l xs ih =>
    have hl := hx l (by simp)
    have hpos := hl.length_pos
    have hne : ((cLoop l.start l.stop l.incr).length : Int) ≠ 0 := by omega
    rw [List.cons_append, unwind, unwind, hl.length]
    simp only [Option.bind_eq_bind, Option.bind_some, hT, hne, or_self, if_false]
    rw [hl.1, ih _ (fun x hx' => hx x (by simp [hx'])) (mul_ne_zero hT (by rw [← hl.1]; exact hne))]
    have : T * ↑(cLoop l.start l.stop 1).length * ↑(tripProd xs) = T * ↑(tripProd (l :: xs)) := by
      simp [tripProd, hl.1, mul_assoc]
    rw [this]
    cases unwind g (T * ↑(cLoop l.start l.stop 1).length) 1 xs with
    | none => simp
    | some a =>
      cases unwind g (T * ↑(tripProd (l :: xs))) 1 ys with
      | none => simp
      | some b => simp

theorem globalIteratorToIndices_cons' (l : Loop) (ls : List Loop) (g n : Int)
    (h : ∀ x ∈ ls, Unit1 x) (hn0 : l.length = some n) (hn1 : n ≠ 0) :
    globalIteratorToIndices (l :: ls) g =
      (globalIteratorToIndices ls g).map (fun t =>
        (l.start + ((g.fdiv (cNest ls).length) * l.incr).fmod n) :: t) := by
  unfold globalIteratorToIndices
  rw [List.reverse_cons, unwind_append _ _ _ _ (by intro x hx; exact h x (by simpa using hx))
    (by decide)]
  have hn := cNest_pos ls (fun x hx => h x (by simp [hx]))
  rw [tripProd_reverse, tripProd_eq]
  have hn' : ((cNest ls).length : Int) ≠ 0 := by omega
  simp only [unwind, hn0, Option.bind_eq_bind, Option.bind_some, one_mul, hn', hn1, or_self,
    if_false, mul_one]
  cases unwind g 1 1 ls.reverse with
  | none => simp
  | some a => simp

theorem globalIteratorToIndices_cons (l : Loop) (ls : List Loop) (g : Int)
    (h : ∀ x ∈ l :: ls, Unit1 x) :
    globalIteratorToIndices (l :: ls) g =
      (globalIteratorToIndices ls g).map (fun t =>
        (l.start + (g.fdiv (cNest ls).length).fmod (cLoop l.start l.stop l.incr).length) :: t) := by
  have hl := h l (by simp)
  have hpos := hl.length_pos
  rw [globalIteratorToIndices_cons' l ls g _ (fun x hx => h x (by simp [hx])) hl.length (by omega)]
  have : ∀ a : Int, a * l.incr = a := fun a => by rw [hl.1, mul_one]
  simp only [this]

theorem getElem?_cLoop_unit (l : Loop) (h : Unit1 l) (k : Nat)
    (hk : k < (cLoop l.start l.stop l.incr).length) :
    (cLoop l.start l.stop l.incr)[k]? = some (l.start + k) := by
  have h1 := getElem?_cLoop l.start l.stop l.incr (by rw [h.1]; decide) k
  rw [List.getElem?_eq_getElem hk] at h1 ⊢
  have e : l.start + (k : Int) * l.incr = l.start + k := by rw [h.1, mul_one]
  rw [e] at h1
  split at h1
  · simpa using h1
  · simp at h1

theorem globalIteratorToIndices_eq (ls : List Loop) (g : Nat) (h : ∀ l ∈ ls, Unit1 l) :
    globalIteratorToIndices ls g = (cNest ls)[g % (cNest ls).length]? := by
  induction ls generalizing g with
  | nil => simp [globalIteratorToIndices, unwind, cNest, Nat.mod_one]
  | cons l ls ih =>
    have hls : ∀ x ∈ ls, Unit1 x := fun x hx => h x (by simp [hx])
    have hl := h l (by simp)
    have hpos := hl.length_pos
    have hn := cNest_pos ls hls
    rw [globalIteratorToIndices_cons l ls g h, ih g hls, length_cNest_cons, cNest,
      getElem?_flatMap_map _ _ _ hn, Nat.mod_mul_left_div_self, Nat.mod_mul_left_mod,
      getElem?_cLoop_unit l hl _ (Nat.mod_lt _ hpos)]
    simp only [Option.bind_some]
    congr 1
    funext t
    congr 1
    rw [Int.fdiv_eq_ediv_of_nonneg _ (by omega), Int.fmod_eq_emod_of_nonneg _ (by omega)]
    push_cast
    ring

theorem windFrom_append (xs ys : List Loop) (is js : List Int) (acc T : Int)
    (hx : ∀ l ∈ xs, Unit1 l) (hlen : is.length = xs.length) :
    windFrom acc T (xs ++ ys) (is ++ js) =
      (windFrom acc T xs is).bind (fun a => windFrom a (T * tripProd xs) ys js) := by
  induction xs generalizing T acc is with
  | nil =>
    have : is = [] := by simpa using hlen
    subst this
    simp [windFrom, tripProd]
  | cons l xs ih =>
    match is, hlen with
    | i :: is, hlen =>
      have hl := hx l (by simp)
      rw [List.cons_append, List.cons_append, windFrom, windFrom, hl.length]
      simp only [Option.bind_eq_bind, Option.bind_some]
      rw [ih _ _ _ (fun x hx' => hx x (by simp [hx'])) (by simpa using hlen)]
      simp [tripProd, mul_assoc]

theorem indicesToGlobalIterator_cons (l : Loop) (ls : List Loop) (i : Int) (is : List Int)
    (h : ∀ x ∈ l :: ls, Unit1 x) (hlen : is.length = ls.length) :
    indicesToGlobalIterator (l :: ls) (i :: is) =
      (indicesToGlobalIterator ls is).map (fun r => r + (i - l.start) * (cNest ls).length) := by
  unfold indicesToGlobalIterator
  rw [List.reverse_cons, List.reverse_cons,
    windFrom_append _ _ _ _ _ _ (by intro x hx; exact h x (by simp at hx; simp [hx])) (by simpa),
    tripProd_reverse, tripProd_eq]
  have hl := h l (by simp)
  cases windFrom 0 1 ls.reverse is.reverse with
  | none => simp
  | some a => simp [windFrom, hl.length]

theorem indicesToGlobalIterator_eq (ls : List Loop) (n : Nat) (t : List Int)
    (h : ∀ l ∈ ls, Unit1 l) (ht : (cNest ls)[n]? = some t) :
    indicesToGlobalIterator ls t = some (n : Int) := by
  induction ls generalizing n t with
  | nil =>
    cases n with
    | zero => simp [cNest] at ht; subst ht; simp [indicesToGlobalIterator, windFrom]
    | succ n => simp [cNest] at ht
  | cons l ls ih =>
    have hls : ∀ x ∈ ls, Unit1 x := fun x hx => h x (by simp [hx])
    have hn := cNest_pos ls hls
    have hl := h l (by simp)
    rw [cNest, getElem?_flatMap_map _ _ _ hn] at ht
    rw [Option.bind_eq_some_iff] at ht
    obtain ⟨i, hi, ht⟩ := ht
    rw [Option.map_eq_some_iff] at ht
    obtain ⟨t', ht', rfl⟩ := ht
    have hi' := getElem?_cLoop_unit l hl (n / (cNest ls).length) (by
      by_contra hc
      rw [List.getElem?_eq_none (by omega)] at hi
      simp at hi)
    rw [hi'] at hi
    have hi2 : l.start + ((n / (cNest ls).length : Nat) : Int) = i := by simpa using hi
    have hlen : t'.length = ls.length := by
      have hm : t' ∈ cNest ls := List.mem_of_getElem? ht'
      clear ih ht' hi' hi hi2 hn h hl
      revert t' 
      clear hls
      induction ls with
      | nil => intro t' hm; simp [cNest] at hm; simp [hm]
      | cons a ls ih =>
        intro t' hm
        simp only [cNest, List.mem_flatMap, List.mem_map] at hm
        obtain ⟨_, _, u, hu, rfl⟩ := hm
        simp [ih u hu]
    rw [indicesToGlobalIterator_cons l ls i t' h hlen, ih _ _ hls ht', ← hi2]
    simp only [Option.map_some, Option.some.injEq, add_sub_cancel_left]
    have := Nat.mod_add_div n (cNest ls).length
    have h2 : ((n % (cNest ls).length : Nat) : Int) + (cNest ls).length * (n / (cNest ls).length : Nat)
      = n := by exact_mod_cast this
    rw [mul_comm]; exact h2

theorem length_of_mem_cNest (ls : List Loop) (t : List Int) (h : t ∈ cNest ls) :
    t.length = ls.length := by
  induction ls generalizing t with
  | nil => simp [cNest] at h; simp [h]
  | cons a ls ih =>
    simp only [cNest, List.mem_flatMap, List.mem_map] at h
    obtain ⟨_, _, u, hu, rfl⟩ := h
    simp [ih u hu]

theorem mem_cLoop (s e c : Int) (hc : 0 < c) (x : Int) :
    x ∈ cLoop s e c ↔ s ≤ x ∧ x < e ∧ (x - s) % c = 0 := by
  rw [List.mem_iff_getElem?]
  constructor
  · rintro ⟨k, hk⟩
    rw [getElem?_cLoop _ _ _ hc] at hk
    split at hk
    · simp at hk; subst hk
      have hkc : 0 ≤ (k : Int) * c := by positivity
      exact ⟨by omega, by assumption, by simp⟩
    · simp at hk
  · rintro ⟨h1, h2, h3⟩
    obtain ⟨q, hq⟩ := Int.dvd_of_emod_eq_zero h3
    have hq0 : 0 ≤ q := by
      by_contra hcon
      push Not at hcon
      have : c * q < 0 := mul_neg_of_pos_of_neg hc hcon
      omega
    obtain ⟨k, rfl⟩ := Int.eq_ofNat_of_zero_le hq0
    refine ⟨k, ?_⟩
    rw [getElem?_cLoop _ _ _ hc]
    have : s + k * c = x := by rw [mul_comm]; omega
    rw [this, if_pos h2]

theorem mem_cNest_unit (ls : List Loop) (t : List Int) (h : ∀ l ∈ ls, Unit1 l) :
    t ∈ cNest ls ↔ List.Forall₂ (fun (l : Loop) i => l.start ≤ i ∧ i < l.stop) ls t := by
  induction ls generalizing t with
  | nil => simp [cNest]
  | cons l ls ih =>
    have hls : ∀ x ∈ ls, Unit1 x := fun x hx => h x (by simp [hx])
    have hl := h l (by simp)
    simp only [cNest, List.mem_flatMap, List.mem_map]
    constructor
    · rintro ⟨i, hi, u, hu, rfl⟩
      rw [mem_cLoop _ _ _ (by rw [hl.1]; decide)] at hi
      exact List.Forall₂.cons ⟨hi.1, hi.2.1⟩ ((ih u hls).1 hu)
    · intro hf
      cases hf with
      | cons hi hf =>
        rename_i i u
        refine ⟨i, ?_, u, (ih u hls).2 hf, rfl⟩
        rw [mem_cLoop _ _ _ (by rw [hl.1]; decide), hl.1]
        exact ⟨hi.1, hi.2, by simp⟩

/-! ### iteration length -/

theorem iterationLengthFrom_eq (ls : List Loop) (T : Int)
    (h : ∀ l ∈ ls, 0 < l.incr ∧ l.start - l.incr < l.stop) :
    iterationLengthFrom T ls = some (T * tripProd ls) := by
  induction ls generalizing T with
  | nil => simp [iterationLengthFrom, tripProd]
  | cons l ls ih =>
    have hl := h l (by simp)
    have : l.length = some ((cLoop l.start l.stop l.incr).length : Int) := by
      unfold Loop.length intCeil
      rw [if_neg hl.1.ne', length_cLoop' _ _ _ hl.1 hl.2]
    rw [iterationLengthFrom, this]
    simp only [Option.bind_eq_bind, Option.bind_some]
    rw [ih _ (fun x hx => h x (by simp [hx]))]
    simp [tripProd, mul_assoc]

end Verif.Iteration
