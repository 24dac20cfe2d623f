import Verif.Lemmas.Standalone
import Verif.Spec.Loops

/-!
C52, C69 and C70: adjustment of variables in the stand-alone benchmark.
-/

namespace Verif.Standalone

/-! ### C52 -/

/-- C52: one round of adjustments moves values towards their stop value only and never beyond. Values cannot be negative
(no sign in `standalone_pheno.py:43-46`); `analyze` calls it for positive runtimes only. -/
theorem C52_adjustment (st st' : St) (b : Bool) (runtimes : List (String × ℚ)) (hr : ∀ r ∈ runtimes, 0 < r.2)
    (h0 : Nonneg st.vars) (h : adjustVariables st runtimes = .ok (st', b)) : List.Forall₂ Moves st.vars st'.vars :=
  (adjustVariables_good runtimes st st' b hr h0 h).1

theorem measureLoop_moves (measure : Nat → St → List (String × ℚ)) (hm : ∀ n st, ∀ r ∈ measure n st, 0 ≤ r.2) (fuel : Nat) :
    ∀ n runtimes st st', (∀ r ∈ runtimes, 0 ≤ r.2) → Nonneg st.vars →
      measureLoop measure fuel n runtimes st = some (.ok st') → List.Forall₂ Moves st.vars st'.vars := by
  induction fuel with
  | zero => intro n runtimes st st' _ _ h; cases h
  | succ fuel ih =>
    intro n runtimes st st' hr h0 h
    unfold measureLoop at h
    split at h
    · cases h
    · rename_i m hmin
      split at h
      · split at h
        · exact ih _ _ _ _ (hm n st) h0 h
        · rename_i hne
          have hpos : ∀ r ∈ runtimes, 0 < r.2 := by
            intro r hr'
            obtain ⟨⟨r', h1, h2⟩, h3⟩ := minRuntime_spec runtimes m hmin
            have := hr r' h1
            rw [h2] at this
            exact lt_of_lt_of_le (lt_of_le_of_ne this (Ne.symm hne)) (h3 r hr')
          split at h
          · cases h
          · rename_i st1 ha
            simp only [Option.some.injEq, Except.ok.injEq] at h
            subst h
            exact (adjustVariables_good runtimes st _ _ hpos h0 ha).1
          · rename_i st1 ha
            have hg := adjustVariables_good runtimes st _ _ hpos h0 ha
            exact forall₂_trans hg.1 (ih _ _ _ _ (hm n st1) hg.2.1 h)
      · simp only [Option.some.injEq, Except.ok.injEq] at h
        subst h
        exact List.forall₂_same.mpr fun a _ => .refl a

/-- C52: the values used in the end lie between the user's start and stop values, for any measured runtimes. -/
theorem C52_limits (measure : Nat → St → List (String × ℚ)) (hm : ∀ n st, ∀ r ∈ measure n st, 0 ≤ r.2) (fuel : Nat)
    (st st' : St) (h0 : Nonneg st.vars) (h : run measure fuel st = some (.ok st')) : List.Forall₂ Moves st.vars st'.vars :=
  measureLoop_moves measure hm fuel 0 _ st st' (by simp) h0 h

theorem measureLoop_ends (measure : Nat → St → List (String × ℚ)) (hm : ∀ n st, ∀ r ∈ measure n st, 0 < r.2) (k : Nat) :
    ∀ n runtimes st ns, (∀ r ∈ runtimes, 0 < r.2) → Nonneg st.vars → List.Forall₂ Left st.vars ns → ns.sum = k →
      measureLoop measure (k + 1) n runtimes st ≠ none := by
  induction k using Nat.strong_induction_on with
  | _ k ih =>
    intro n runtimes st ns hr h0 hns hk
    unfold measureLoop
    split
    · simp
    · rename_i m hmin
      split
      · obtain ⟨⟨r', h1, h2⟩, _⟩ := minRuntime_spec runtimes m hmin
        have : m ≠ 0 := by
          have := hr r' h1
          rw [h2] at this
          exact this.ne'
        rw [if_neg this]
        split
        · simp
        · simp
        · rename_i st1 ha
          have hg := adjustVariables_good runtimes st _ _ hr h0 ha
          obtain ⟨ms, m1, _, m3⟩ := hg.2.2 ns hns
          have hlt := m3 rfl
          rw [hk] at hlt
          have := ih ms.sum hlt (n + 1) (measure n st1) st1 ms (hm n st1) hg.2.1 m1 rfl
          intro hnone
          apply this
          -- fewer rounds
          have mono : ∀ a c n rts st, measureLoop measure (a + c) n rts st = none → measureLoop measure a n rts st = none := by
            intro a
            induction a with
            | zero => intros; rfl
            | succ a iha =>
              intro c n rts st h
              rw [show a + 1 + c = (a + c) + 1 by omega] at h
              unfold measureLoop at h ⊢
              split
              · rename_i he; rw [he] at h; cases h
              · rename_i m' he
                rw [he] at h
                simp only at h
                split
                · rename_i hlt'
                  rw [if_pos hlt'] at h
                  split
                  · rename_i hz
                    rw [if_pos hz] at h
                    exact iha _ _ _ _ h
                  · rename_i hz
                    rw [if_neg hz] at h
                    split
                    · rename_i e he'; rw [he'] at h; cases h
                    · rename_i s he'; rw [he'] at h; cases h
                    · rename_i s he'
                      rw [he'] at h
                      exact iha _ _ _ _ h
                · rename_i hge
                  rw [if_neg hge] at h
                  cases h
          have e : k = (ms.sum + 1) + (k - (ms.sum + 1)) := by omega
          rw [e] at hnone
          exact mono _ _ _ _ _ hnone
      · simp

/-- C52, partial: the loop ends, whatever runtimes are measured. Missing (hypotheses): measured runtimes are positive,
increasing variables start above zero, see the negations; decreasing variables stop above zero (with floating point
numbers they also reach zero, by underflow). -/
theorem C52_terminates_partial (measure : Nat → St → List (String × ℚ)) (hm : ∀ n st, ∀ r ∈ measure n st, 0 < r.2) (st : St)
    (h0 : Nonneg st.vars)
    (hv : ∀ v ∈ st.vars, v.adjustable = true → (v.log = false → 0 < v.value) ∧ (v.log = true → 0 < v.stop)) :
    ∃ fuel, run measure fuel st ≠ none := by
  have : ∃ ns, List.Forall₂ Left st.vars ns := by
    have key : ∀ vs : List Var, (∀ v ∈ vs, v.adjustable = true → (v.log = false → 0 < v.value) ∧ (v.log = true → 0 < v.stop)) →
        ∃ ns, List.Forall₂ Left vs ns := by
      intro vs
      induction vs with
      | nil => exact fun _ => ⟨[], .nil⟩
      | cons v vs ih =>
        intro h
        obtain ⟨n, hn⟩ := left_exists v (h v (by simp))
        obtain ⟨ns, hns⟩ := ih fun x hx => h x (by simp [hx])
        exact ⟨n :: ns, .cons hn hns⟩
    exact key _ hv
  obtain ⟨ns, hns⟩ := this
  refine ⟨ns.sum + 1 + 1, ?_⟩
  unfold run
  have hrun : measureLoop measure (ns.sum + 1 + 1) 0 [("", 0)] st = measureLoop measure (ns.sum + 1) 1 (measure 0 st) st := by
    conv_lhs => unfold measureLoop
    simp [minRuntime]
  rw [hrun]
  exact measureLoop_ends measure hm ns.sum 1 _ st ns (hm 0 st) h0 hns rfl

/-- `-D N 1000:5000`, `-D R marked:100:1:log` -/
def exampleSt : St :=
  ⟨[⟨"N", ["", "all"], 1000, 5000, true, false⟩, ⟨"R", ["all"], 100, 1, true, true⟩],
    [⟨0, 1000, 1, some "N", 0⟩], [("all", [0])]⟩

/-- It meets the hypotheses; two rounds of one second reach 2000 and 4000, the third one takes two seconds. -/
example : Nonneg exampleSt.vars ∧
    (∀ v ∈ exampleSt.vars, v.adjustable = true → (v.log = false → 0 < v.value) ∧ (v.log = true → 0 < v.stop)) ∧
    (run (fun n _ => [("all", if n < 2 then 1 else 2)]) 10 exampleSt).map (fun r => r.toOption.map fun s => s.vars.map Var.value) =
      some (some [4000, 100]) ∧
    (run (fun _ _ => [("all", 1)]) 10 exampleSt).map (fun r => r.toOption.map fun s => s.vars.map Var.value) =
      some (some [5000, 1]) := by
  refine ⟨?_, ?_, by decide +kernel, by decide +kernel⟩
  · intro v hv
    simp only [exampleSt, List.mem_cons, List.not_mem_nil, or_false] at hv
    rcases hv with rfl | rfl <;> norm_num
  · intro v hv
    simp only [exampleSt, List.mem_cons, List.not_mem_nil, or_false] at hv
    rcases hv with rfl | rfl <;> norm_num

/-- C52, negation: a variable that starts at zero is adjusted forever if runs take one second. -/
theorem C52_negation_zero_start : ∃ st, Nonneg st.vars ∧ (∀ v ∈ st.vars, v.value < v.stop) ∧
    ∀ fuel, run (fun _ _ => [("all", 1)]) fuel st = none := by
  let st : St := ⟨[⟨"N", ["all"], 0, 10, true, false⟩], [], [("all", [])]⟩
  have hst : adjustVariables st [("all", 1)] = .ok (st, true) := by decide +kernel
  have key : ∀ fuel n, measureLoop (fun _ _ => [("all", 1)]) fuel n [("all", 1)] st = none := by
    intro fuel
    induction fuel with
    | zero => intro n; rfl
    | succ fuel ih =>
      intro n
      unfold measureLoop
      have : minRuntime [("all", 1)] = some 1 := rfl
      rw [this]
      simp only
      rw [if_pos (by norm_num), if_neg (by norm_num), hst]
      exact ih _
  refine ⟨st, ?_, ?_, ?_⟩
  · intro v hv
    simp only [st, List.mem_singleton] at hv
    subst hv
    norm_num
  · intro v hv
    simp only [st, List.mem_singleton] at hv
    subst hv
    norm_num
  · intro fuel
    cases fuel with
    | zero => rfl
    | succ fuel =>
      unfold run measureLoop
      simp only [minRuntime, List.foldl_nil]
      rw [if_pos (by norm_num), if_pos trivial]
      exact key _ _

/-- C52, negation: measured runtimes of zero repeat the measurement forever, with nothing to adjust. -/
theorem C52_negation_zero_runtime (st : St) (fuel : Nat) : run (fun _ _ => [("all", 0)]) fuel st = none := by
  have key : ∀ fuel n name, measureLoop (fun _ _ => [("all", 0)]) fuel n [(name, 0)] st = none := by
    intro fuel
    induction fuel with
    | zero => intros; rfl
    | succ fuel ih =>
      intro n name
      unfold measureLoop
      simp only [minRuntime, List.foldl_nil]
      rw [if_pos (by norm_num), if_pos trivial]
      exact ih _ _
  exact key _ _ _

/-! ### C69 -/

/-- Every loop that is controlled by a variable ends at the value of the variable minus its offset. -/
def Follows (st : St) : Prop :=
  ∀ l ∈ st.heap, ∀ n, l.var = some n → ∀ v ∈ st.vars, v.name = n → l.stop = v.value - l.offset

/-- The loops of every region of an adjustable variable include all loops that it controls. -/
def Shared (st : St) : Prop :=
  ∀ v ∈ st.vars, v.adjustable = true → ∀ r ∈ v.regions, ∀ ids, st.loops.lookup r = some ids →
    ∀ i l, st.heap[i]? = some l → l.var = some v.name → i ∈ ids

theorem adjustFirst_change (region : String) (rt : ℚ) (vs : List Var) (r : List Var × Option (String × ℚ))
    (h : adjustFirst region rt vs = .ok r) :
    (r.2 = none ∧ r.1 = vs) ∨ ∃ v x pre post, vs = pre ++ v :: post ∧ r.1 = pre ++ { v with value := x } :: post ∧
      r.2 = some (v.name, x) ∧ v.adjustable = true ∧ region ∈ v.regions := by
  induction vs generalizing r with
  | nil =>
    simp only [adjustFirst, Except.ok.injEq] at h
    subst h
    exact Or.inl ⟨rfl, rfl⟩
  | cons v vs ih =>
    have skip : ∀ r', adjustFirst region rt vs = .ok r' → r = (v :: r'.1, r'.2) →
        (r.2 = none ∧ r.1 = v :: vs) ∨ ∃ w x pre post, v :: vs = pre ++ w :: post ∧ r.1 = pre ++ { w with value := x } :: post ∧
          r.2 = some (w.name, x) ∧ w.adjustable = true ∧ region ∈ w.regions := by
      rintro r' h1 rfl
      rcases ih r' h1 with ⟨e1, e2⟩ | ⟨w, x, pre, post, e1, e2, e3, e4, e5⟩
      · exact Or.inl ⟨e1, by simp [e2]⟩
      · exact Or.inr ⟨w, x, v :: pre, post, by simp [e1], by simp [e2], e3, e4, e5⟩
    unfold adjustFirst at h
    split at h
    · rename_i hc
      split at h
      · cases h
      · split at h
        · rename_i x hx
          simp only [Except.ok.injEq] at h
          subst h
          exact Or.inr ⟨v, x, [], vs, rfl, rfl, rfl, hc.1, hc.2⟩
        · obtain ⟨r', h1, h2⟩ := map_ok h
          exact skip r' h1 h2
    · obtain ⟨r', h1, h2⟩ := map_ok h
      exact skip r' h1 h2

theorem adjustRegion_follows (st st' : St) (b : Bool) (region : String) (rt : ℚ) (hn : (st.vars.map Var.name).Nodup)
    (hf : Follows st) (hs : Shared st) (h : adjustRegion st region rt = .ok (st', b)) :
    Follows st' ∧ Shared st' ∧ st'.vars.map Var.name = st.vars.map Var.name := by
  unfold adjustRegion at h
  obtain ⟨r, h1, h2⟩ := bind_ok h
  rcases adjustFirst_change region rt st.vars r h1 with ⟨e1, e2⟩ | ⟨v, x, pre, post, e1, e2, e3, e4, e5⟩
  · rw [e1] at h2
    simp only [Except.ok.injEq, Prod.mk.injEq] at h2
    obtain ⟨rfl, rfl⟩ := h2
    rw [e2]
    exact ⟨hf, hs, rfl⟩
  · rw [e3] at h2
    simp only at h2
    split at h2
    · cases h2
    · rename_i ids hids
      simp only [Except.ok.injEq, Prod.mk.injEq] at h2
      obtain ⟨rfl, rfl⟩ := h2
      have hname : ∀ w ∈ pre ++ post, w.name ≠ v.name := by
        intro w hw he
        rw [e1, List.map_append, List.map_cons, List.nodup_middle, List.nodup_cons] at hn
        apply hn.1
        rw [← List.map_append]
        exact List.mem_map.mpr ⟨w, hw, he⟩
      have hget : ∀ i l', (modifyAt (adjustLoop v.name x) ids st.heap)[i]? = some l' →
          ∃ l, st.heap[i]? = some l ∧ l' = if i ∈ ids then adjustLoop v.name x l else l := by
        intro i l' hl
        unfold modifyAt at hl
        rw [List.getElem?_mapIdx] at hl
        cases hg : st.heap[i]? with
        | none => rw [hg] at hl; cases hl
        | some l =>
          rw [hg] at hl
          simp only [Option.map_some, Option.some.injEq] at hl
          exact ⟨l, rfl, hl.symm⟩
      have hvar : ∀ l : LoopInfo, (adjustLoop v.name x l).var = l.var := by
        intro l
        unfold adjustLoop
        split <;> rfl
      refine ⟨?_, ?_, ?_⟩
      · intro l' hl' n hln w hw hwn
        obtain ⟨i, hi⟩ := List.mem_iff_getElem?.mp hl'
        obtain ⟨l, g1, g2⟩ := hget i l' hi
        have hmem : l ∈ st.heap := List.mem_of_getElem? g1
        have hlv : l.var = some n := by
          rw [g2] at hln
          split at hln
          · rwa [hvar] at hln
          · exact hln
        simp only at hw
        rw [e2] at hw
        by_cases hnv : n = v.name
        · subst hnv
          have hin := hs v (by rw [e1]; simp) e4 region e5 ids hids i l g1 hlv
          rw [if_pos hin] at g2
          have hwv : w = { v with value := x } := by
            rw [List.mem_append, List.mem_cons] at hw
            rcases hw with hw | hw | hw
            · exact absurd hwn (hname w (by simp [hw]))
            · exact hw
            · exact absurd hwn (hname w (by simp [hw]))
          rw [g2, hwv]
          unfold adjustLoop
          rw [if_pos hlv]
        · have hw' : w ∈ st.vars := by
            rw [List.mem_append, List.mem_cons] at hw
            rw [e1]
            rcases hw with hw | hw | hw
            · simp [hw]
            · exact absurd hwn (by rw [hw]; exact fun e => hnv e.symm)
            · simp [hw]
          have hsame : l' = l := by
            rw [g2]
            split
            · unfold adjustLoop
              rw [if_neg (by rw [hlv]; simp [hnv])]
            · rfl
          rw [hsame]
          exact hf l hmem n hlv w hw' hwn
      · intro w hw hwa r' hr' ids' hids' i l' hl' hlv
        simp only at hw hids' hl'
        rw [e2] at hw
        obtain ⟨l, g1, g2⟩ := hget i l' hl'
        have hlv' : l.var = some w.name := by
          rw [g2] at hlv
          split at hlv
          · rwa [hvar] at hlv
          · exact hlv
        rw [List.mem_append, List.mem_cons] at hw
        rcases hw with hw | hw | hw
        · exact hs w (by rw [e1]; simp [hw]) hwa r' hr' ids' hids' i l g1 hlv'
        · subst hw
          exact hs v (by rw [e1]; simp) e4 r' hr' ids' hids' i l g1 hlv'
        · exact hs w (by rw [e1]; simp [hw]) hwa r' hr' ids' hids' i l g1 hlv'
      · simp only
        rw [e2, e1]
        simp

theorem adjustRegions_follows (rts : List (String × ℚ)) (st st' : St) (b : Bool) (hn : (st.vars.map Var.name).Nodup)
    (hf : Follows st) (hs : Shared st) (h : adjustRegions st rts = .ok (st', b)) :
    Follows st' ∧ Shared st' ∧ st'.vars.map Var.name = st.vars.map Var.name := by
  induction rts generalizing st st' b with
  | nil =>
    simp only [adjustRegions, Except.ok.injEq, Prod.mk.injEq] at h
    obtain ⟨rfl, rfl⟩ := h
    exact ⟨hf, hs, rfl⟩
  | cons r rs ih =>
    obtain ⟨region, rt⟩ := r
    simp only [adjustRegions] at h
    obtain ⟨⟨st1, b1⟩, h1, h2⟩ := bind_ok h
    obtain ⟨⟨st2, b2⟩, h3, h4⟩ := bind_ok h2
    simp only [Except.ok.injEq, Prod.mk.injEq] at h4
    obtain ⟨rfl, rfl⟩ := h4
    obtain ⟨g1, g2, g3⟩ := adjustRegion_follows st st1 b1 region rt hn hf hs h1
    obtain ⟨k1, k2, k3⟩ := ih st1 st2 b2 (by rw [g3]; exact hn) g1 g2 h3
    exact ⟨k1, k2, by rw [k3, g3]⟩

theorem measureLoop_follows (measure : Nat → St → List (String × ℚ)) (fuel : Nat) :
    ∀ n runtimes st st', (st.vars.map Var.name).Nodup → Follows st → Shared st →
      measureLoop measure fuel n runtimes st = some (.ok st') → Follows st' := by
  induction fuel with
  | zero => intro n runtimes st st' _ _ _ h; cases h
  | succ fuel ih =>
    intro n runtimes st st' hn hf hs h
    unfold measureLoop at h
    split at h
    · cases h
    · split at h
      · split at h
        · exact ih _ _ _ _ hn hf hs h
        · split at h
          · cases h
          · rename_i ha
            simp only [Option.some.injEq, Except.ok.injEq] at h
            subst h
            exact (adjustRegions_follows _ st _ _ hn hf hs ha).1
          · rename_i ha
            obtain ⟨g1, g2, g3⟩ := adjustRegions_follows _ st _ _ hn hf hs ha
            exact ih _ _ _ _ (by rw [g3]; exact hn) g1 g2 h
      · simp only [Option.some.injEq, Except.ok.injEq] at h
        subst h
        exact hf

/-- C69, partial: if the loops of every region of a variable include all loops that the variable controls, the loops end
where the variables say when the measurements are done. Missing: variables that control loops of regions one by one, see
the negation. -/
theorem C69_loop_ends_partial (measure : Nat → St → List (String × ℚ)) (fuel : Nat) (st st' : St)
    (hn : (st.vars.map Var.name).Nodup) (hf : Follows st) (hs : Shared st) (h : run measure fuel st = some (.ok st')) :
    Follows st' := measureLoop_follows measure fuel 0 _ st st' hn hf hs h

/-- The example meets the hypotheses. -/
example : (exampleSt.vars.map Var.name).Nodup ∧ Follows exampleSt ∧ Shared exampleSt := by
  refine ⟨by decide, ?_, ?_⟩
  · intro l hl n hn v hv hvn
    simp only [exampleSt, List.mem_cons, List.not_mem_nil, or_false] at hl hv
    subst hl
    simp only [Option.some.injEq] at hn
    subst hn
    rcases hv with rfl | rfl
    · norm_num
    · simp at hvn
  · intro v hv _ r hr ids hids i l hl hlv
    simp only [exampleSt, List.mem_cons, List.not_mem_nil, or_false] at hv
    have hi : i = 0 := by
      cases i with
      | zero => rfl
      | succ i => simp [exampleSt] at hl
    subst hi
    have : ids = [0] := by
      simp only [exampleSt, List.lookup] at hids
      split at hids
      · simpa using hids.symm
      · cases hids
    simp [this]

/-- `-D N 1000:5000`, loops `-L a:0:1000:N -L b:0:1000:N` -/
def twoRegions : St :=
  ⟨[⟨"N", ["", "a", "b"], 1000, 5000, true, false⟩], [⟨0, 1000, 1, some "N", 0⟩, ⟨0, 1000, 1, some "N", 0⟩],
    [("a", [0]), ("b", [1])]⟩

/-- C69, negation: only the loops of the region that ran too short are updated. Here region `b` runs with `N = 2000` in
the end, but its loop still ends at 1000. -/
theorem C69_negation : Follows twoRegions ∧ ∃ measure fuel st', (∀ n st, ∀ r ∈ measure n st, 0 < r.2) ∧
    run measure fuel twoRegions = some (.ok st') ∧ ¬ Follows st' := by
  constructor
  · intro l hl n hn v hv hvn
    simp only [twoRegions, List.mem_cons, List.not_mem_nil, or_false] at hl hv
    subst hv
    rcases hl with rfl | rfl <;> norm_num
  · refine ⟨fun n _ => [("a", if n < 1 then 1 else 2), ("b", 2)], 5,
      ⟨[⟨"N", ["", "a", "b"], 2000, 5000, true, false⟩], [⟨0, 2000, 1, some "N", 0⟩, ⟨0, 1000, 1, some "N", 0⟩],
        [("a", [0]), ("b", [1])]⟩, ?_, by decide +kernel, ?_⟩
    · intro n st r hr
      simp only [List.mem_cons, List.not_mem_nil, or_false] at hr
      rcases hr with rfl | rfl
      · simp only; split <;> norm_num
      · norm_num
    · intro h
      have := h ⟨0, 1000, 1, some "N", 0⟩ (by simp) "N" rfl ⟨"N", ["", "a", "b"], 2000, 5000, true, false⟩ (by simp) rfl
      norm_num at this

/-! ### C70 -/

open Verif.Iteration

theorem cLoop_length_dvd (s c : Int) (hc : 0 < c) (n : Nat) : (cLoop s (s + n * c) c).length = n := by
  induction n generalizing s with
  | zero =>
    rw [cLoop, if_neg (by push Not; intro h; simp at h)]
    rfl
  | succ n ih =>
    rw [cLoop, if_pos ⟨by push_cast; nlinarith, hc⟩]
    have : s + ((n + 1 : Nat) : Int) * c = (s + c) + n * c := by push_cast; ring
    rw [this, List.length_cons, ih]

/-- A nest of loops with integer bounds. -/
def infos (ls : List Loop) : List LoopInfo := ls.map fun l => ⟨l.start, l.stop, l.incr, none, 0⟩

theorem cNest_length (ls : List Loop) : (cNest ls).length = (ls.map fun l => (cLoop l.start l.stop l.incr).length).prod := by
  induction ls with
  | nil => rfl
  | cons l ls ih =>
    simp only [cNest, List.length_flatMap, List.length_map, List.map_const', List.sum_replicate, List.map_cons, List.prod_cons]
    rw [ih]
    simp

/-- The trips of a loop are the quotient of its length and its step, rounded up. -/
theorem cLoop_bounds (s e c : Int) (hc : 0 < c) (h : s < e) :
    e - s ≤ (cLoop s e c).length * c ∧ ((cLoop s e c).length : Int) * c < e - s + c := by
  generalize hm : (e - s).toNat = m
  induction m using Nat.strongRecOn generalizing s with
  | ind m ih =>
    rw [cLoop, if_pos ⟨h, hc⟩, List.length_cons]
    push_cast
    by_cases h2 : s + c < e
    · obtain ⟨a, b⟩ := ih _ (by omega) (s + c) h2 rfl
      constructor <;> nlinarith
    · rw [cLoop, if_neg (by omega)]
      simp
      omega

theorem cLoop_floor (s e c : Int) (hc : 0 < c) (h : s < e) :
    0 ≤ (e - s) / c ∧ (e - s) / c ≤ (cLoop s e c).length ∧ 0 < (cLoop s e c).length ∧
      ((e - s) / c = (cLoop s e c).length ↔ c ∣ e - s) := by
  obtain ⟨a, b⟩ := cLoop_bounds s e c hc h
  have hd := Int.mul_ediv_add_emod (e - s) c
  have h0 := Int.emod_nonneg (e - s) hc.ne'
  have hq : 0 ≤ (e - s) / c := Int.ediv_nonneg (by omega) hc.le
  have hle : (e - s) / c ≤ (cLoop s e c).length := Int.ediv_le_of_le_mul hc a
  refine ⟨hq, hle, ?_, ?_, ?_⟩
  · rw [cLoop, if_pos ⟨h, hc⟩]; simp
  · intro he
    rw [← he] at a
    exact Int.dvd_of_emod_eq_zero (by nlinarith)
  · rintro ⟨k, hk⟩
    rw [hk, Int.mul_ediv_cancel_left _ hc.ne']
    rw [hk] at a b
    nlinarith [mul_comm c k, lt_of_mul_lt_mul_left (a := c) (b := k) (c := k + 1) (by nlinarith) hc.le]

/-- C70, partial: the iterations per repetition are the iterations of the loop nest. Missing (hypotheses): loops whose
step does not divide their length, and loops that end before they start, see the negations. -/
theorem C70_iterations_partial (ls : List Loop) (h : ∀ l ∈ ls, 0 < l.incr ∧ l.start ≤ l.stop ∧ l.incr ∣ l.stop - l.start) :
    iterationsPerRepetition (infos ls) = .ok ((cNest ls).length : Int) := by
  rw [cNest_length]
  induction ls with
  | nil => rfl
  | cons l ls ih =>
    obtain ⟨h1, h2, h3⟩ := h l (by simp)
    have hi := ih fun x hx => h x (by simp [hx])
    obtain ⟨k, hk⟩ := h3
    have hk0 : 0 ≤ k := by
      by_contra hneg
      have : l.incr * k < 0 := by nlinarith
      omega
    obtain ⟨n, rfl⟩ := Int.eq_ofNat_of_zero_le hk0
    have hstop : l.stop = l.start + n * l.incr := by rw [mul_comm]; omega
    have hq : ((l.incr : ℚ)) ≠ 0 := by exact_mod_cast h1.ne'
    simp only [infos, List.map_cons, iterationsPerRepetition]
    rw [if_neg hq]
    simp only [infos] at hi
    rw [hi, hstop, List.prod_cons, cLoop_length_dvd _ _ h1]
    have : (((l.start + n * l.incr : Int) : ℚ) - l.start) / l.incr = ((n : Int) : ℚ) := by
      push_cast
      field_simp
      ring
    simp only [bind, Except.bind]
    rw [this, Int.floor_intCast]
    push_cast
    rfl

/-- Two loops. -/
example : iterationsPerRepetition (infos [⟨1, 11, 2⟩, ⟨0, 4, 1⟩]) = .ok 20 := by decide +kernel

/-- Products of smaller factors are smaller, and are equal only if all factors are. -/
theorem prod_eq_iff {A : Type} (f g : A → ℚ) (l : List A) (h : ∀ x ∈ l, 0 ≤ f x ∧ f x ≤ g x ∧ 0 < g x) :
    0 ≤ (l.map f).prod ∧ (l.map f).prod ≤ (l.map g).prod ∧ 0 < (l.map g).prod ∧
      ((l.map f).prod = (l.map g).prod ↔ ∀ x ∈ l, f x = g x) := by
  induction l with
  | nil => simp
  | cons x l ih =>
    obtain ⟨a, b, c⟩ := h x (by simp)
    obtain ⟨i, j, k, e⟩ := ih fun y hy => h y (by simp [hy])
    simp only [List.map_cons, List.prod_cons, List.forall_mem_cons]
    refine ⟨mul_nonneg a i, mul_le_mul b j i c.le, mul_pos c k, ?_, ?_⟩
    · intro he
      have h1 : f x = g x := by
        by_contra hne
        have : f x < g x := lt_of_le_of_ne b hne
        nlinarith [mul_le_mul_of_nonneg_left j a, mul_lt_mul_of_pos_right this k]
      refine ⟨h1, e.1 ?_⟩
      rw [h1] at he
      exact mul_left_cancel₀ c.ne' he
    · rintro ⟨h1, h2⟩
      rw [h1, e.2 h2]

theorem iterationsPerRepetition_prod (ls : List Loop) (h : ∀ l ∈ ls, 0 < l.incr) :
    iterationsPerRepetition (infos ls) = .ok (ls.map fun l : Loop => (l.stop - l.start) / l.incr).prod := by
  induction ls with
  | nil => rfl
  | cons l ls ih =>
    have h1 := h l (by simp)
    have hi := ih fun x hx => h x (by simp [hx])
    have hq : ((l.incr : ℚ)) ≠ 0 := by exact_mod_cast h1.ne'
    simp only [infos, List.map_cons, iterationsPerRepetition]
    rw [if_neg hq]
    simp only [infos] at hi
    rw [hi]
    simp only [bind, Except.bind, List.prod_cons]
    have := Rat.floor_intCast_div_natCast (l.stop - l.start) l.incr.toNat
    rw [show ((l.incr.toNat : Nat) : ℚ) = (l.incr : ℚ) by
      rw [← Int.cast_natCast, Int.toNat_of_nonneg h1.le], Int.toNat_of_nonneg h1.le] at this
    push_cast at this
    rw [this]

/-- C70: the exact condition for loops that are entered. The number is the one of the loop nest if and only if every step divides the
length of its loop. -/
theorem C70_iterations_iff (ls : List Loop) (h : ∀ l ∈ ls, 0 < l.incr ∧ l.start < l.stop) :
    iterationsPerRepetition (infos ls) = .ok ((cNest ls).length : Int) ↔ ∀ l ∈ ls, l.incr ∣ l.stop - l.start := by
  rw [iterationsPerRepetition_prod ls fun l hl => (h l hl).1, cNest_length, Except.ok.injEq]
  have hp := (prod_eq_iff (fun l : Loop => (((l.stop - l.start) / l.incr : Int) : ℚ))
    (fun l : Loop => (((cLoop l.start l.stop l.incr).length : Nat) : ℚ)) ls fun l hl => by
      obtain ⟨a, b, c, -⟩ := cLoop_floor l.start l.stop l.incr (h l hl).1 (h l hl).2
      refine ⟨by exact_mod_cast a, ?_, by exact_mod_cast c⟩
      exact_mod_cast b).2.2.2
  have e1 : (ls.map fun l : Loop => (((l.stop - l.start) / l.incr : Int) : ℚ)).prod
      = (((ls.map fun l : Loop => (l.stop - l.start) / l.incr).prod : Int) : ℚ) := by
    have := map_list_prod (Int.castRingHom ℚ) (ls.map fun l : Loop => (l.stop - l.start) / l.incr)
    rw [List.map_map] at this; exact this.symm
  have e2 : (ls.map fun l : Loop => (((cLoop l.start l.stop l.incr).length : Nat) : ℚ)).prod
      = (((ls.map fun l : Loop => (cLoop l.start l.stop l.incr).length).prod : Nat) : ℚ) := by
    have := map_list_prod (Nat.castRingHom ℚ) (ls.map fun l : Loop => (cLoop l.start l.stop l.incr).length)
    rw [List.map_map] at this; exact this.symm
  rw [e1, e2] at hp
  rw [show ((ls.map fun l : Loop => (l.stop - l.start) / l.incr).prod
      = (((ls.map fun l : Loop => (cLoop l.start l.stop l.incr).length).prod : Nat) : Int)) ↔ _ from
    ⟨fun e => hp.1 (by rw [e]; push_cast; rfl), fun e => by exact_mod_cast hp.2 e⟩]
  refine forall₂_congr fun l hl => ?_
  rw [← (cLoop_floor l.start l.stop l.incr (h l hl).1 (h l hl).2).2.2.2]
  constructor <;> · intro e; exact_mod_cast e

example : iterationsPerRepetition (infos [⟨1, 12, 2⟩, ⟨0, 4, 1⟩]) ≠ .ok ((cNest [⟨1, 12, 2⟩, ⟨0, 4, 1⟩]).length : Int) := by
  rw [Ne, C70_iterations_iff _ (by decide)]
  decide

/-- C70, negation: the last, incomplete step is not counted. The loop from 0 to 10 in steps of 3 has four iterations. -/
theorem C70_negation_step : iterationsPerRepetition (infos [⟨0, 10, 3⟩]) = .ok 3 ∧ (cNest [⟨0, 10, 3⟩]).length = 4 := by
  refine ⟨by decide +kernel, ?_⟩
  rw [cNest_length, List.map_cons, List.map_nil, List.prod_singleton]
  rw [cLoop, if_pos (by decide), cLoop, if_pos (by decide), cLoop, if_pos (by decide), cLoop, if_pos (by decide), cLoop,
    if_neg (by decide)]
  rfl

/-- C70, negation: loops without iterations have negative counts. -/
theorem C70_negation_empty : iterationsPerRepetition (infos [⟨2, 0, 1⟩]) = .ok (-2) ∧ (cNest [⟨2, 0, 1⟩]).length = 0 := by
  refine ⟨by decide +kernel, ?_⟩
  rw [cNest_length, List.map_cons, List.map_nil, List.prod_singleton, cLoop, if_neg (by decide)]
  rfl

end Verif.Standalone
