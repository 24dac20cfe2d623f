import Verif.Spec.Poly
import Mathlib.Tactic.Ring
import Mathlib.Algebra.BigOperators.Group.List.Basic
import Mathlib.Tactic.Linarith
import Mathlib.Tactic.ByContra
import Mathlib.Algebra.Order.Ring.Abs

/-!
Helper lemmas for C84.
-/

namespace Verif.DistKey

open Verif.Spec

/-! ### Polynomials in one symbol as lists of coefficients, highest first -/

/-- Value of a list of coefficients. -/
def hval (N : Int) : List Int → Int
  | [] => 0
  | c :: cs => c * N ^ cs.length + hval N cs

/-- Sum of absolute values. -/
def absSum : List Int → Int
  | [] => 0
  | c :: cs => |c| + absSum cs

theorem absSum_nonneg (cs : List Int) : 0 ≤ absSum cs := by
  induction cs with
  | nil => simp [absSum]
  | cons c cs ih => simp only [absSum]; have := abs_nonneg c; omega

theorem hval_bound (N : Int) (hN : 1 ≤ N) (c : Int) (cs : List Int) :
    |hval N (c :: cs)| ≤ absSum (c :: cs) * N ^ cs.length := by
  induction cs generalizing c with
  | nil => simp [hval, absSum]
  | cons d ds ih =>
    have h1 := ih d
    have hp : (0 : Int) ≤ N ^ ds.length := pow_nonneg (by omega) _
    have hp1 : N ^ ds.length ≤ N ^ (ds.length + 1) := by
      rw [pow_succ]; nlinarith
    have h2 : absSum (d :: ds) * N ^ ds.length ≤ absSum (d :: ds) * N ^ (ds.length + 1) :=
      mul_le_mul_of_nonneg_left hp1 (absSum_nonneg _)
    have h3 : |c * N ^ (ds.length + 1)| = |c| * N ^ (ds.length + 1) := by
      rw [abs_mul, abs_of_nonneg (pow_nonneg (by omega : (0:Int) ≤ N) _)]
    calc |hval N (c :: d :: ds)| = |c * N ^ (ds.length + 1) + hval N (d :: ds)| := by rw [hval]; rfl
      _ ≤ |c * N ^ (ds.length + 1)| + |hval N (d :: ds)| := abs_add_le _ _
      _ ≤ absSum (c :: d :: ds) * N ^ (ds.length + 1) := by
        rw [h3, show absSum (c :: d :: ds) = |c| + absSum (d :: ds) from rfl, add_mul]
        linarith

/-- A polynomial with positive leading coefficient is positive for large numbers. -/
theorem hval_pos (c : Int) (cs : List Int) (hc : 0 < c) : ∃ N0, ∀ N ≥ N0, 0 < hval N (c :: cs) := by
  cases cs with
  | nil => exact ⟨0, fun N _ => by simpa [hval] using hc⟩
  | cons d ds =>
    refine ⟨absSum (d :: ds) + 1, fun N hN => ?_⟩
    have hS := absSum_nonneg (d :: ds)
    have hb := (abs_le.mp (hval_bound N (by omega) d ds)).1
    have hp : (0 : Int) < N ^ ds.length := pow_pos (by omega) _
    rw [hval, List.length_cons, pow_succ]
    have h1 : 0 < N ^ ds.length * (N - absSum (d :: ds)) := mul_pos hp (by omega)
    have h2 : N ^ ds.length * N ≤ c * (N ^ ds.length * N) := by
      have : 0 ≤ N ^ ds.length * N := mul_nonneg hp.le (by omega)
      nlinarith
    have h3 : N ^ ds.length * (N - absSum (d :: ds)) = N ^ ds.length * N - absSum (d :: ds) * N ^ ds.length := by ring
    linarith

theorem hval_sub (N : Int) (as bs : List Int) (h : as.length = bs.length) :
    hval N (List.zipWith (· - ·) bs as) = hval N bs - hval N as := by
  induction as generalizing bs with
  | nil => cases bs with
    | nil => simp [hval]
    | cons b bs => simp at h
  | cons a as ih => cases bs with
    | nil => simp at h
    | cons b bs =>
      have h' : as.length = bs.length := by simpa using h
      simp only [List.zipWith_cons_cons, hval, ih bs h', List.length_zipWith, h', Nat.min_self]
      ring

theorem hval_replicate (N : Int) (k : Nat) (as : List Int) : hval N (List.replicate k 0 ++ as) = hval N as := by
  induction k with
  | zero => simp
  | succ k ih => simp [List.replicate_succ, hval, ih]

/-- Lexicographic order of lists of equal length. -/
def lexLt : List Int → List Int → Prop
  | a :: as, b :: bs => a < b ∨ (a = b ∧ lexLt as bs)
  | _, _ => False

theorem hval_lex (as bs : List Int) (hl : as.length = bs.length) (h : lexLt as bs) :
    ∃ N0, ∀ N ≥ N0, hval N as < hval N bs := by
  induction as generalizing bs with
  | nil => cases bs <;> simp [lexLt] at h
  | cons a as ih =>
    cases bs with
    | nil => simp at hl
    | cons b bs =>
      have hl' : as.length = bs.length := by simpa using hl
      rcases h with h | ⟨rfl, h⟩
      · obtain ⟨N0, h0⟩ := hval_pos (b - a) (List.zipWith (· - ·) bs as) (by omega)
        refine ⟨N0, fun N hN => ?_⟩
        have h1 := h0 N hN
        have h2 := hval_sub N (a :: as) (b :: bs) hl
        rw [List.zipWith_cons_cons] at h2
        rw [h2] at h1
        omega
      · obtain ⟨N0, h0⟩ := ih bs hl' h
        refine ⟨N0, fun N hN => ?_⟩
        have := h0 N hN
        simp only [hval, hl']
        omega

/-- A polynomial of higher degree with positive leading coefficient is larger for large numbers. -/
theorem hval_degree (as : List Int) (b : Int) (bs : List Int) (hb : 0 < b) (hl : as.length ≤ bs.length) :
    ∃ N0, ∀ N ≥ N0, hval N as < hval N (b :: bs) := by
  have h := hval_lex (List.replicate (bs.length + 1 - as.length) 0 ++ as) (b :: bs) (by simp; omega) (by
    have : bs.length + 1 - as.length = (bs.length - as.length) + 1 := by omega
    rw [this, List.replicate_succ]
    exact Or.inl hb)
  obtain ⟨N0, h0⟩ := h
  refine ⟨N0, fun N hN => ?_⟩
  have := h0 N hN
  rwa [hval_replicate] at this

/-! ### Keys as lists of coefficients -/

/-- The entries of a list of coefficients with their exponents. -/
def entries : List Int → List (Nat × Int)
  | [] => []
  | c :: cs => (cs.length, c) :: entries cs

theorem tuplesLt_entries (a b : Int) (as bs : List Int) :
    tuplesLt (entries (a :: as)) (entries (b :: bs)) = true ↔
      as.length < bs.length ∨ (as.length = bs.length ∧ lexLt (a :: as) (b :: bs)) := by
  induction as generalizing a b bs with
  | nil =>
    cases bs with
    | nil =>
      simp only [entries, tuplesLt, List.length_nil, lexLt]
      by_cases h1 : a < b
      · simp [h1]
      · simp [h1]
    | cons c cs => simp [entries, tuplesLt]
  | cons a' as ih =>
    rw [show entries (a :: a' :: as) = ((a' :: as).length, a) :: entries (a' :: as) from rfl,
      show entries (b :: bs) = (bs.length, b) :: entries bs from rfl]
    simp only [tuplesLt]
    by_cases h1 : (a' :: as).length < bs.length
    · rw [if_pos h1]
      simp only [true_iff]
      exact Or.inl h1
    · by_cases h2 : bs.length < (a' :: as).length
      · rw [if_neg h1, if_pos h2]
        constructor
        · intro h; simp at h
        · rintro (h | ⟨h, _⟩) <;> omega
      · have hl : (a' :: as).length = bs.length := by omega
        rw [if_neg h1, if_neg h2]
        by_cases h3 : a < b
        · simp [h3, lexLt, hl]
        · by_cases h4 : b < a
          · rw [if_neg h3, if_pos h4]
            constructor
            · intro h; simp at h
            · rintro (h | ⟨_, h | ⟨h, _⟩⟩)
              · exact absurd h h1
              · exact absurd h h3
              · omega
          · rw [if_neg h3, if_neg h4]
            cases bs with
            | nil => simp at hl
            | cons b' bs' =>
              rw [ih a' b' bs']
              have hl' : as.length = bs'.length := by simpa using hl
              have hab : a = b := by omega
              subst hab
              simp [lexLt, hl', hl]

theorem lex_total (as bs : List Int) (hl : as.length = bs.length) : lexLt as bs ∨ as = bs ∨ lexLt bs as := by
  induction as generalizing bs with
  | nil => cases bs with
    | nil => exact Or.inr (Or.inl rfl)
    | cons b bs => simp at hl
  | cons a as ih => cases bs with
    | nil => simp at hl
    | cons b bs =>
      rcases lt_trichotomy a b with h | rfl | h
      · exact Or.inl (Or.inl h)
      · rcases ih bs (by simpa using hl) with h | rfl | h
        · exact Or.inl (Or.inr ⟨rfl, h⟩)
        · exact Or.inr (Or.inl rfl)
        · exact Or.inr (Or.inr (Or.inr ⟨rfl, h⟩))
      · exact Or.inr (Or.inr (Or.inl h))

/-! ### Construction of the key -/

/-- Coefficient of an exponent. -/
def coefOf (l : List (Nat × Int)) (e : Nat) : Int := (l.lookup e).getD 0

/-- Coefficients from exponent `n - 1` down to zero. -/
def coeffs (l : List (Nat × Int)) : Nat → List Int
  | 0 => []
  | n + 1 => coefOf l n :: coeffs l n

theorem coeffs_length (l : List (Nat × Int)) (n : Nat) : (coeffs l n).length = n := by
  induction n with
  | zero => rfl
  | succ n ih => simp [coeffs, ih]

theorem coefOf_cons_ne (f : Nat) (d : Int) (l : List (Nat × Int)) (e : Nat) (h : e ≠ f) :
    coefOf ((f, d) :: l) e = coefOf l e := by
  have : (e == f) = false := by simpa using h
  simp [coefOf, List.lookup, this]

theorem coefOf_cons_eq (d : Int) (l : List (Nat × Int)) (e : Nat) : coefOf ((e, d) :: l) e = d := by
  simp [coefOf, List.lookup]

theorem coeffs_congr (l l' : List (Nat × Int)) (n : Nat) (h : ∀ e < n, coefOf l e = coefOf l' e) :
    coeffs l n = coeffs l' n := by
  induction n with
  | zero => rfl
  | succ n ih => rw [coeffs, coeffs, h n (by omega), ih fun e he => h e (by omega)]

theorem coefOf_of_lt (l : List (Nat × Int)) (n : Nat) (h : ∀ t ∈ l, t.1 < n) (e : Nat) (he : n ≤ e) : coefOf l e = 0 := by
  induction l with
  | nil => rfl
  | cons t l ih =>
    obtain ⟨f, d⟩ := t
    have := h (f, d) (by simp)
    rw [coefOf_cons_ne _ _ _ _ (by simp at this; omega)]
    exact ih fun t ht => h t (by simp [ht])

theorem fill_eq (n : Nat) (pre l : List (Nat × Int)) (hl : l.Pairwise (fun a b => b.1 < a.1)) (hn : ∀ t ∈ l, t.1 < n) :
    fill (List.range n).reverse pre.length (pre ++ l) = pre ++ entries (coeffs l n) := by
  induction n generalizing pre l with
  | zero =>
    have : l = [] := by
      cases l with
      | nil => rfl
      | cons t l => exact absurd (hn t (by simp)) (by omega)
    subst this
    simp [fill, coeffs, entries]
  | succ n ih =>
    rw [List.range_succ, List.reverse_append, List.reverse_singleton, List.singleton_append, fill]
    rw [coeffs, entries, coeffs_length]
    cases l with
    | nil =>
      have h1 : (pre ++ [])[pre.length]? = (none : Option (Nat × Int)) := by simp
      rw [h1]
      simp only [Option.any_none, Bool.false_eq_true, if_false]
      have h2 : (pre ++ []).take pre.length ++ (n, (0 : Int)) :: (pre ++ []).drop pre.length = (pre ++ [(n, 0)]) ++ [] := by simp
      rw [h2]
      have := ih (pre ++ [(n, 0)]) [] List.Pairwise.nil (by simp)
      rw [List.length_append, List.length_singleton] at this
      rw [this]
      simp [coefOf]
    | cons t l =>
      obtain ⟨f, d⟩ := t
      have h1 : (pre ++ (f, d) :: l)[pre.length]? = some (f, d) := by simp
      rw [h1]
      simp only [Option.any_some]
      rw [List.pairwise_cons] at hl
      by_cases hf : f = n
      · subst hf
        simp only [BEq.rfl, if_true]
        have h2 : pre ++ (f, d) :: l = (pre ++ [(f, d)]) ++ l := by simp
        rw [h2]
        have := ih (pre ++ [(f, d)]) l hl.2 (fun t ht => hl.1 t ht)
        rw [List.length_append, List.length_singleton] at this
        rw [this, coefOf_cons_eq, List.append_assoc, List.singleton_append]
        congr 3
        exact coeffs_congr _ _ _ fun e he => (coefOf_cons_ne _ _ _ _ (by omega)).symm
      · have hne : (f == n) = false := by simpa using hf
        have hfn : f < n := by
          have := hn (f, d) (by simp)
          simp at this
          omega
        simp only [hne, Bool.false_eq_true, if_false]
        have h2 : (pre ++ (f, d) :: l).take pre.length ++ (n, (0 : Int)) :: (pre ++ (f, d) :: l).drop pre.length =
            (pre ++ [(n, 0)]) ++ (f, d) :: l := by simp
        rw [h2]
        have hall : ∀ t ∈ (f, d) :: l, t.1 < n := by
          intro t ht
          rcases List.mem_cons.mp ht with rfl | ht
          · exact hfn
          · have := hl.1 t ht
            simp at this
            omega
        have := ih (pre ++ [(n, 0)]) ((f, d) :: l) (List.pairwise_cons.mpr hl) hall
        rw [List.length_append, List.length_singleton] at this
        rw [this, coefOf_of_lt _ n hall n (le_refl _)]
        simp

/-! ### Values -/

/-- Value of a list of exponents and coefficients. -/
def termsVal (N : Int) (l : List (Nat × Int)) : Int := (l.map fun t => t.2 * N ^ t.1).sum

theorem powers_const (N : Int) (i : Nat) (es : List Nat) : powers (fun _ => N) i es = N ^ es.sum := by
  induction es generalizing i with
  | nil => simp [powers]
  | cons e es ih => rw [powers, ih, List.sum_cons, pow_add]

theorem termsVal_addTerm (N : Int) (e : Nat) (c : Int) (l : List (Nat × Int)) :
    termsVal N (addTerm e c l) = termsVal N l + c * N ^ e := by
  induction l with
  | nil => simp [addTerm, termsVal]
  | cons t l ih =>
    obtain ⟨f, d⟩ := t
    rw [addTerm]
    split
    · rename_i h
      subst h
      simp only [termsVal, List.map_cons, List.sum_cons]
      ring
    · simp only [termsVal, List.map_cons, List.sum_cons] at ih ⊢
      rw [ih]
      ring

theorem termsVal_collect (N : Int) (p : Poly) (acc : List (Nat × Int)) :
    termsVal N (p.foldl (fun acc m => addTerm m.2.sum m.1 acc) acc) = termsVal N acc + value (fun _ => N) p := by
  induction p generalizing acc with
  | nil => simp [value]
  | cons m p ih =>
    obtain ⟨c, es⟩ := m
    rw [List.foldl_cons, ih, termsVal_addTerm, value, powers_const]
    ring

theorem termsVal_filter (N : Int) (l : List (Nat × Int)) : termsVal N (l.filter (·.2 ≠ 0)) = termsVal N l := by
  induction l with
  | nil => rfl
  | cons t l ih =>
    rw [List.filter_cons]
    split
    · simp only [termsVal, List.map_cons, List.sum_cons] at ih ⊢
      rw [ih]
    · rename_i h
      have h0 : t.2 = 0 := by simpa using h
      rw [ih]
      simp [termsVal, h0]

theorem termsVal_collapse (N : Int) (p : Poly) : termsVal N (collapse p) = value (fun _ => N) p := by
  unfold collapse
  rw [termsVal_filter, termsVal_collect]
  simp [termsVal]

theorem addTerm_keys (e : Nat) (c : Int) (l : List (Nat × Int)) (x : Nat) :
    x ∈ (addTerm e c l).map Prod.fst ↔ x = e ∨ x ∈ l.map Prod.fst := by
  induction l with
  | nil => simp [addTerm]
  | cons t l ih =>
    obtain ⟨f, d⟩ := t
    rw [addTerm]
    split
    · rename_i h
      subst h
      simp
    · rw [List.map_cons, List.mem_cons, ih, List.map_cons, List.mem_cons]
      tauto

theorem addTerm_nodup (e : Nat) (c : Int) (l : List (Nat × Int)) (h : (l.map Prod.fst).Nodup) :
    ((addTerm e c l).map Prod.fst).Nodup := by
  induction l with
  | nil => simp [addTerm]
  | cons t l ih =>
    obtain ⟨f, d⟩ := t
    rw [List.map_cons, List.nodup_cons] at h
    rw [addTerm]
    split
    · simpa using h
    · rename_i hne
      rw [List.map_cons, List.nodup_cons]
      refine ⟨?_, ih h.2⟩
      rw [addTerm_keys]
      rintro (h1 | h1)
      · exact hne h1.symm
      · exact h.1 h1

theorem collapse_nodup (p : Poly) : ((collapse p).map Prod.fst).Nodup := by
  unfold collapse
  have h : ∀ acc : List (Nat × Int), (acc.map Prod.fst).Nodup →
      ((p.foldl (fun acc m => addTerm m.2.sum m.1 acc) acc).map Prod.fst).Nodup := by
    induction p with
    | nil => intro acc h; exact h
    | cons m p ih => intro acc h; exact ih _ (addTerm_nodup _ _ _ h)
  exact (h [] List.nodup_nil).sublist (List.Sublist.map _ List.filter_sublist)

theorem collapse_nonzero (p : Poly) : ∀ t ∈ collapse p, t.2 ≠ 0 := by
  intro t ht
  unfold collapse at ht
  have := (List.mem_filter.mp ht).2
  simpa using this

/-- The value is that of the coefficients. -/
theorem hval_coeffs (N : Int) (l : List (Nat × Int)) (hl : l.Pairwise (fun a b => b.1 < a.1)) (n : Nat)
    (hn : ∀ t ∈ l, t.1 < n) : hval N (coeffs l n) = termsVal N l := by
  induction n generalizing l with
  | zero =>
    have : l = [] := by
      cases l with
      | nil => rfl
      | cons t l => exact absurd (hn t (by simp)) (by omega)
    subst this
    simp [coeffs, hval, termsVal]
  | succ n ih =>
    rw [coeffs, hval, coeffs_length]
    cases l with
    | nil =>
      rw [ih [] List.Pairwise.nil (by simp)]
      simp [coefOf, termsVal]
    | cons t l =>
      obtain ⟨f, d⟩ := t
      by_cases hf : f = n
      · subst hf
        rw [List.pairwise_cons] at hl
        rw [coefOf_cons_eq, coeffs_congr _ l f (fun e he => coefOf_cons_ne _ _ _ _ (by omega)),
          ih l hl.2 (fun t ht => hl.1 t ht)]
        simp [termsVal]
      · have hall : ∀ t ∈ (f, d) :: l, t.1 < n := by
          intro t ht
          have h0 := hn (f, d) (by simp)
          rw [List.pairwise_cons] at hl
          rcases List.mem_cons.mp ht with rfl | ht
          · simp at h0 ⊢; omega
          · have := hl.1 t ht
            simp at this h0
            omega
        rw [coefOf_of_lt _ n hall n (le_refl _), ih _ hl hall]
        simp

/-- What a key consists of: the coefficients of the polynomial, and whether it is a number. -/
theorem distKey_poly (p : Poly) (k : Key) (h : distKey (.poly p) = some k) :
    (∃ c, k = some (entries [(c.natAbs : Int)]) ∧ ∀ σ, value σ p = c) ∨
    (∃ c cs, k = some (entries (c :: cs)) ∧ c ≠ 0 ∧ cs ≠ [] ∧ ∀ N, value (fun _ => N) p = hval N (c :: cs)) := by
  simp only [distKey] at h
  split at h
  · rename_i c hc
    refine Or.inl ⟨c, by simpa [entries] using h.symm, fun σ => ?_⟩
    unfold isInteger at hc
    split at hc
    · simp at hc; subst hc; rfl
    · rename_i c' es
      split at hc
      · rename_i hes
        simp at hc
        subst hc
        have : ∀ i, powers σ i es = 1 := by
          have hz : ∀ e ∈ es, e = 0 := by
            clear h
            induction es with
            | nil => simp
            | cons x es ih =>
              rw [List.sum_cons] at hes
              intro e he
              rcases List.mem_cons.mp he with rfl | he
              · omega
              · exact ih (by omega) e he
          clear hes
          intro i
          induction es generalizing i with
          | nil => rfl
          | cons e es ih =>
            rw [powers, hz e (by simp), ih (fun e he => hz e (by simp [he]))]
            simp
        simp [value, this]
      · simp at hc
    · simp at hc
  · split at h
    · rename_i hany
      split at h
      · simp at h
      · rename_i t ts hs
        simp only [Option.some.injEq] at h
        have hperm : (t :: ts).Perm (collapse p) := by rw [← hs]; exact List.perm_insertionSort _ _
        have hnd : ((t :: ts).map Prod.fst).Nodup := (hperm.map _).nodup_iff.mpr (collapse_nodup p)
        have : Std.Total termGe := ⟨fun a b => by unfold termGe; omega⟩
        have : IsTrans (Nat × Int) termGe := ⟨fun a b c => by unfold termGe; omega⟩
        have hsorted : (t :: ts).Pairwise termGe := by
          rw [← hs]
          exact List.pairwise_insertionSort _ _
        have hstrict : (t :: ts).Pairwise (fun a b => b.1 < a.1) := by
          have hnd' : (t :: ts).Pairwise (fun a b => a.1 ≠ b.1) := by
            rw [List.Nodup, List.pairwise_map] at hnd
            exact hnd
          refine (hsorted.and hnd').imp ?_
          rintro a b ⟨h1, h2⟩
          unfold termGe at h1
          omega
        have hlt : ∀ x ∈ t :: ts, x.1 < t.1 + 1 := by
          intro x hx
          rw [List.pairwise_cons] at hstrict
          rcases List.mem_cons.mp hx with rfl | hx
          · omega
          · have := hstrict.1 x hx
            omega
        have hfill := fill_eq (t.1 + 1) [] (t :: ts) hstrict hlt
        simp only [List.length_nil, List.nil_append] at hfill
        have hval := fun N => hval_coeffs N (t :: ts) hstrict (t.1 + 1) hlt
        have hc : coeffs (t :: ts) (t.1 + 1) = t.2 :: coeffs (t :: ts) t.1 := by
          rw [coeffs]
          obtain ⟨f, d⟩ := t
          rw [coefOf_cons_eq]
        refine Or.inr ⟨t.2, coeffs (t :: ts) t.1, ?_, ?_, ?_, ?_⟩
        · rw [← h, hfill, hc]
        · exact collapse_nonzero p t (hperm.mem_iff.mp (by simp))
        · intro h0
          have := congrArg List.length h0
          rw [coeffs_length] at this
          simp only [List.length_nil] at this
          have hall : ∀ x ∈ collapse p, x.1 = 0 := by
            intro x hx
            have := hlt x (hperm.mem_iff.mpr hx)
            omega
          simp only [ne_eq, decide_not, List.any_eq_true, Bool.not_eq_eq_eq_not, Bool.not_true, decide_eq_false_iff_not] at hany
          obtain ⟨x, hx, hx0⟩ := hany
          exact hx0 (hall x hx)
        · intro N
          rw [← hc, hval N, ← termsVal_collapse]
          unfold termsVal
          exact ((hperm.map _).sum_eq).symm
    · simp at h

end Verif.DistKey
