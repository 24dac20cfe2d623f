import Verif.Model.Clean
import Verif.Lemmas.Text
import Mathlib.Tactic.Linarith

/-!
Helper lemmas for C40 and C65.
-/

namespace Verif.Clean

open Verif.Text

/-- Characters `a`, `b` at position `p`. -/
def At (s : List Char) (p : Nat) (a b : Char) : Prop := s[p]? = some a ∧ s[p + 1]? = some b

/-- The two characters occur nowhere next to each other. -/
def Free (s : List Char) (a b : Char) : Prop := ∀ p, ¬ At s p a b

/-- `out` results from `orig` by deleting characters other than newlines. -/
def Kept (orig out : List Char) : Prop := out.Sublist orig ∧ out.count '\n' = orig.count '\n'

theorem Kept.refl (s : List Char) : Kept s s := ⟨List.Sublist.refl s, rfl⟩

theorem Kept.trans {a b c : List Char} (h1 : Kept a b) (h2 : Kept b c) : Kept a c :=
  ⟨h2.1.trans h1.1, h2.2.trans h1.2⟩

/-! ### Slices -/

theorem bound_le (n : Nat) (i : Int) : bound n i ≤ n ∨ i < 0 ∧ n < bound n i := by
  unfold bound
  split <;> omega

theorem bound_le' (n : Nat) (i : Int) : bound n i ≤ n := by
  unfold bound
  split <;> omega

theorem slice_length (s : List Char) (a b : Int) :
    (slice s a b).length = bound s.length b - bound s.length a := by
  unfold slice
  have := bound_le' s.length b
  simp only [List.length_drop, List.length_take]
  omega

theorem window (s : List Char) (i : Int) (a b : Char) (h : slice s i (i + 2) = [a, b]) :
    ∃ p : Nat, bound s.length i = p ∧ At s p a b ∧ p + 2 ≤ s.length ∧ (0 ≤ i → (p : Int) = i) ∧
      (i < 0 → (p : Int) = i + s.length ∧ i ≤ -3) := by
  have hl := slice_length s i (i + 2)
  rw [h] at hl
  simp only [List.length_cons, List.length_nil] at hl
  have h2 : bound s.length (i + 2) = bound s.length i + 2 := by omega
  have hle := bound_le' s.length (i + 2)
  refine ⟨bound s.length i, rfl, ?_, by omega, ?_, ?_⟩
  · unfold slice at h
    have e : ∀ k, ((s.take (bound s.length (i + 2))).drop (bound s.length i))[k]? =
        if k < 2 then s[bound s.length i + k]? else none := by
      intro k
      rw [List.getElem?_drop, List.getElem?_take, h2]
      by_cases hk : k < 2
      · rw [if_pos (by omega), if_pos hk]
      · rw [if_neg (by omega), if_neg hk]
    constructor
    · have := e 0
      rw [h] at this
      simpa using this.symm
    · have := e 1
      rw [h] at this
      simpa using this.symm
  · intro hi
    unfold bound at h2 hle ⊢
    split at h2 <;> split at h2 <;> split <;> split at hle <;> omega
  · intro hi
    unfold bound at h2 hle ⊢
    simp only [hi, if_true] at h2 ⊢
    split at h2 <;> split at hle <;> constructor <;> omega

theorem window_nonneg (s : List Char) (p : Nat) (a b : Char) (h : At s p a b) : slice s p ((p : Int) + 2) = [a, b] := by
  obtain ⟨h1, h2⟩ := h
  have hlt : p + 1 < s.length := by
    rw [List.getElem?_eq_some_iff] at h2
    exact h2.1
  have b1 : bound s.length p = p := by unfold bound; split <;> omega
  have b2 : bound s.length ((p : Int) + 2) = p + 2 := by unfold bound; split <;> omega
  unfold slice
  rw [b1, b2]
  apply List.ext_getElem?
  intro k
  rw [List.getElem?_drop, List.getElem?_take]
  match k with
  | 0 => simpa using h1
  | 1 => simpa using h2
  | k + 2 => rw [if_neg (by omega)]; simp

theorem findNl_cases (s : List Char) (i : Int) (p : Nat) (hp : bound s.length i = p) (_hle : p < s.length) :
    (findNl s i = -1 ∧ '\n' ∉ s.drop p) ∨
    ∃ m v, s = s.take p ++ m ++ '\n' :: v ∧ '\n' ∉ m ∧ findNl s i = ((p + m.length : Nat) : Int) := by
  unfold findNl sliceFrom
  rw [hp]
  cases hf : (s.drop p).findIdx? (· = '\n') with
  | none =>
    left
    refine ⟨rfl, fun hm => ?_⟩
    rw [List.findIdx?_eq_none_iff] at hf
    have := hf _ hm
    simp at this
  | some k =>
    right
    rw [List.findIdx?_eq_some_iff_getElem] at hf
    obtain ⟨hk, h1, h2⟩ := hf
    refine ⟨(s.drop p).take k, (s.drop p).drop (k + 1), ?_, ?_, ?_⟩
    · have : (s.drop p).drop k = '\n' :: (s.drop p).drop (k + 1) := by
        rw [List.drop_eq_getElem_cons hk]
        simp only [decide_eq_true_eq] at h1
        rw [h1]
      rw [List.append_assoc, ← this, List.take_append_drop, List.take_append_drop]
    · intro hm
      obtain ⟨j, hj, he⟩ := List.mem_iff_getElem.mp hm
      have hj' : j < k := by
        simp only [List.length_take] at hj
        omega
      have := h2 j hj'
      rw [List.getElem_take] at he
      simp [he] at this
    · have : ((s.drop p).take k).length = k := by
        rw [List.length_take]; omega
      rw [this]

/-! ### The three kinds of events keep lines -/

theorem kept_line (u m v : List Char) (hm : '\n' ∉ m) : Kept (u ++ m ++ '\n' :: v) (u ++ '\n' :: v) := by
  constructor
  · rw [List.append_assoc]
    exact (List.Sublist.refl u).append (List.sublist_append_right m _)
  · simp [List.count_append, List.count_eq_zero.mpr hm]

theorem kept_tail (s : List Char) (p k : Nat) (hm : '\n' ∉ s.drop p) (hk : p ≤ k) : Kept s (s.take p ++ s.drop k) := by
  have hs : (s.drop k).Sublist (s.drop p) := by
    have : s.drop k = (s.drop p).drop (k - p) := by rw [List.drop_drop]; congr 1; omega
    rw [this]
    exact List.drop_sublist _ _
  constructor
  · conv_rhs => rw [← List.take_append_drop p s]
    exact (List.Sublist.refl _).append hs
  · conv_rhs => rw [← List.take_append_drop p s]
    rw [List.count_append, List.count_append, List.count_eq_zero.mpr hm,
      List.count_eq_zero.mpr (fun h => hm (hs.subset h))]

theorem kept_block (u m v : List Char) (x y : Char) (hx : x ≠ '\n') (hy : y ≠ '\n') :
    Kept (u ++ m ++ x :: y :: v) (u ++ List.replicate (m.count '\n') '\n' ++ v) := by
  constructor
  · refine (List.Sublist.refl u).append ?_ |>.append ?_
    · rw [List.replicate_sublist_iff]
    · exact (List.Sublist.refl v).cons y |>.cons x
  · simp [List.count_append, hx, hy]

/-! ### The loop -/

/-- The loop condition, line 39. -/
def Cond (s : St) : Prop := s.idx < (s.code.length : Int) - 1

theorem loop_result (I : St → Prop) (Q : List Char → Prop)
    (hstep : ∀ s, I s → Cond s → I (step s) ∧ ((step s).code.length < s.code.length ∨
      ((step s).code.length = s.code.length ∧ s.idx < (step s).idx)))
    (hend : ∀ s, I s → ¬ Cond s → Q s.code) (s : St) (hs : I s) :
    ∃ out n, Q out ∧ ∀ fuel, n ≤ fuel → loop fuel s = some out := by
  have key : ∀ len k, ∀ s : St, I s → s.code.length = len → ((len : Int) - s.idx).toNat = k →
      ∃ out n, Q out ∧ ∀ fuel, n ≤ fuel → loop fuel s = some out := by
    intro len
    induction len using Nat.strong_induction_on with
    | _ len ihl =>
      intro k
      induction k using Nat.strong_induction_on with
      | _ k ihk =>
        intro s hs hl hk
        by_cases hc : Cond s
        · obtain ⟨hi, hd⟩ := hstep s hs hc
          have : ∃ out n, Q out ∧ ∀ fuel, n ≤ fuel → loop fuel (step s) = some out := by
            rcases hd with hd | ⟨h1, h2⟩
            · exact ihl _ (by omega) _ (step s) hi rfl rfl
            · refine ihk _ ?_ (step s) hi (by omega) rfl
              unfold Cond at hc
              omega
          obtain ⟨out, n, hq, hf⟩ := this
          refine ⟨out, n + 1, hq, fun fuel hfuel => ?_⟩
          obtain ⟨f, rfl⟩ : ∃ f, fuel = f + 1 := ⟨fuel - 1, by omega⟩
          unfold loop
          unfold Cond at hc
          rw [if_pos hc]
          exact hf f (by omega)
        · refine ⟨s.code, 1, hend s hs hc, fun fuel hfuel => ?_⟩
          obtain ⟨f, rfl⟩ : ∃ f, fuel = f + 1 := ⟨fuel - 1, by omega⟩
          unfold loop
          unfold Cond at hc
          rw [if_neg hc]
  exact key _ _ s hs rfl rfl

/-! ### One step -/

/-- What a step does, by the window of two characters. -/
inductive StepIs (s : St) : St → Prop
  | skip (h1 : s.start = none → slice s.code s.idx (s.idx + 2) ≠ ['/', '/'] ∧ slice s.code s.idx (s.idx + 2) ≠ ['/', '*'])
      (h2 : s.start ≠ none → slice s.code s.idx (s.idx + 2) ≠ ['*', '/']) : StepIs s { s with idx := s.idx + 1 }
  | line (p : Nat) (m v : List Char) (hn : s.start = none) (hb : bound s.code.length s.idx = p) (hat : At s.code p '/' '/')
      (hpos : 0 ≤ s.idx → (p : Int) = s.idx) (hneg : s.idx < 0 → (p : Int) = s.idx + s.code.length ∧ s.idx ≤ -3)
      (hc : s.code = s.code.take p ++ m ++ '\n' :: v) (hm : '\n' ∉ m) (hl : 2 ≤ m.length) :
      StepIs s ⟨s.code.take p ++ '\n' :: v, 2 * s.idx - (p + m.length) + 1, none⟩
  | lastLine (p : Nat) (hn : s.start = none) (hb : bound s.code.length s.idx = p) (hat : At s.code p '/' '/')
      (hpos : 0 ≤ s.idx → (p : Int) = s.idx) (hneg : s.idx < 0 → (p : Int) = s.idx + s.code.length ∧ s.idx ≤ -3)
      (hc : '\n' ∉ s.code.drop p) :
      StepIs s ⟨s.code.take p ++ s.code.drop (s.code.length - 1), 2 * s.idx + 2, none⟩
  | opens (p : Nat) (hn : s.start = none) (hat : At s.code p '/' '*')
      (hpos : 0 ≤ s.idx → (p : Int) = s.idx) (hneg : s.idx < 0 → (p : Int) = s.idx + s.code.length ∧ s.idx ≤ -3) :
      StepIs s ⟨s.code, s.idx + 1, some s.idx⟩
  | closes (p : Nat) (c : Int) (hn : s.start = some c) (hat : At s.code p '*' '/')
      (hpos : 0 ≤ s.idx → (p : Int) = s.idx) (hneg : s.idx < 0 → (p : Int) = s.idx + s.code.length ∧ s.idx ≤ -3) :
      StepIs s ⟨sliceTo s.code c ++ List.replicate ((slice s.code c s.idx).count '\n') '\n' ++ sliceFrom s.code (s.idx + 2),
        c + 1, none⟩

theorem step_is (s : St) : StepIs s (step s) := by
  unfold step
  cases hs : s.start with
  | none =>
    simp only
    split
    · rename_i hw
      obtain ⟨p, hb, hat, hle, hpos, hneg⟩ := window _ _ _ _ hw
      rcases findNl_cases s.code s.idx p hb (by omega) with ⟨hf, hno⟩ | ⟨m, v, hc, hm, hf⟩
      · have : StepIs s ⟨s.code.take p ++ s.code.drop (s.code.length - 1), 2 * s.idx + 2, none⟩ :=
          .lastLine p hs hb hat hpos hneg hno
        rw [hf]
        have e1 : sliceFrom s.code (-1) = s.code.drop (s.code.length - 1) := by
          unfold sliceFrom bound
          rw [if_pos (by omega)]
          congr 1
          omega
        have e2 : s.idx - (-1 - s.idx) + 1 = 2 * s.idx + 2 := by ring
        unfold sliceTo
        rw [e1, e2, hb]
        exact this
      · have hlen := congrArg List.length hc
        simp only [List.length_append, List.length_cons, List.length_take] at hlen
        have hl : 2 ≤ m.length := by
          by_contra hlt
          have hnl : s.code[p + m.length]? = some '\n' := by
            conv_lhs => rw [hc]
            rw [List.getElem?_append_right (by simp only [List.length_append, List.length_take]; omega)]
            simp only [List.length_append, List.length_take]
            have : p + m.length - (min p s.code.length + m.length) = 0 := by omega
            rw [this]; rfl
          have : m.length = 0 ∨ m.length = 1 := by omega
          rcases this with h | h
          · rw [h] at hnl
            have := hat.1
            rw [Nat.add_zero] at hnl
            rw [hnl] at this
            simp at this
          · rw [h] at hnl
            have := hat.2
            rw [hnl] at this
            simp at this
        have : StepIs s ⟨s.code.take p ++ '\n' :: v, 2 * s.idx - (p + m.length) + 1, none⟩ :=
          .line p m v hs hb hat hpos hneg hc hm hl
        rw [hf]
        have e1 : sliceFrom s.code ((p + m.length : Nat) : Int) = '\n' :: v := by
          have hbd : bound s.code.length ((p + m.length : Nat) : Int) = p + m.length := by
            unfold bound
            split <;> omega
          unfold sliceFrom
          rw [hbd]
          have hlen2 : (s.code.take p ++ m).length = p + m.length := by
            simp only [List.length_append, List.length_take]; omega
          conv_lhs => rw [hc, ← hlen2]
          exact List.drop_left
        have e2 : s.idx - (((p + m.length : Nat) : Int) - s.idx) + 1 = 2 * s.idx - (p + m.length) + 1 := by
          push_cast; ring
        unfold sliceTo
        rw [e1, e2, hb]
        exact this
    · split
      · rename_i _ hw
        obtain ⟨p, hb, hat, hle, hpos, hneg⟩ := window _ _ _ _ hw
        exact .opens p hs hat hpos hneg
      · rename_i h1 h2
        have : StepIs s { s with idx := s.idx + 1 } := .skip (fun _ => ⟨h1, h2⟩) (fun h => absurd hs h)
        rw [hs] at this
        exact this
  | some c =>
    simp only
    split
    · rename_i hw
      obtain ⟨p, hb, hat, hle, hpos, hneg⟩ := window _ _ _ _ hw
      have e : s.idx - (s.idx - c) + 1 = c + 1 := by ring
      rw [e]
      exact .closes p c hs hat hpos hneg
    · rename_i h1
      have : StepIs s { s with idx := s.idx + 1 } := .skip (fun h => by rw [hs] at h; simp at h) (fun _ => h1)
      rw [hs] at this
      exact this

theorem At.lt {s : List Char} {p : Nat} {a b : Char} (h : At s p a b) : p + 1 < s.length := by
  have := h.2
  rw [List.getElem?_eq_some_iff] at this
  exact this.1

/-- Decomposition of the text at a closed comment. -/
theorem closes_form (s : List Char) (c p : Nat) (hcp : c ≤ p) (hat : At s p '*' '/') :
    s = s.take c ++ (s.take p).drop c ++ '*' :: '/' :: s.drop (p + 2) ∧
    sliceTo s c = s.take c ∧ slice s c p = (s.take p).drop c ∧ sliceFrom s ((p : Int) + 2) = s.drop (p + 2) := by
  have hlt := hat.lt
  have bc : bound s.length (c : Int) = c := by unfold bound; split <;> omega
  have bp : bound s.length (p : Int) = p := by unfold bound; split <;> omega
  have bp2 : bound s.length ((p : Int) + 2) = p + 2 := by unfold bound; split <;> omega
  refine ⟨?_, by rw [sliceTo, bc], by rw [slice, bc, bp], by rw [sliceFrom, bp2]⟩
  have h1 : s.take c = (s.take p).take c := by rw [List.take_take, Nat.min_eq_left hcp]
  rw [h1, List.take_append_drop]
  have e1 := hat.1
  have e2 := hat.2
  rw [List.getElem?_eq_some_iff] at e1 e2
  obtain ⟨l1, e1⟩ := e1
  obtain ⟨l2, e2⟩ := e2
  have : '*' :: '/' :: s.drop (p + 2) = s.drop p := by
    rw [List.drop_eq_getElem_cons l1, List.drop_eq_getElem_cons l2, e1, e2]
  rw [this, List.take_append_drop]

theorem getElem?_append_len (u v : List Char) (n j : Nat) (h : u.length = n) : (u ++ v)[n + j]? = v[j]? := by
  subst h
  rw [List.getElem?_append_right (by omega)]
  congr 1
  omega

end Verif.Clean
