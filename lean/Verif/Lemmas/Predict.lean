import Verif.Model.Predict
import Verif.Spec.Predict
import Verif.Lemmas.Layout
import Verif.Props.LayerCond
import Verif.Props.Machine
import Verif.Props.Transfer
import Mathlib.Algebra.Order.BigOperators.Group.List

/-! Lemmas for C138: each step from the layer conditions to the predictions is monotone. -/

namespace Verif.Predict

open Verif.LayerCond Verif.Perf

variable {K : Type} [LinearOrder K]

/-! ### Traffic -/

/-- The option that is selected for a cache. -/
def Selected (w : Work K) (c : Cache K) (o : Opt) : Prop :=
  select (buildOptions c.size w.sumSizes c.fullStatic c.isStatic w.ds w.nInf w.nDest c.tails) = some o

/-- At most as much traffic. -/
def Less (o o' : Opt) : Prop := o'.misses ≤ o.misses ∧ o'.evicts ≤ o.evicts

theorem selected_exists (w : Work K) (c : Cache K) : ∃ o, Selected w c o := by
  unfold Selected
  rw [select_buildOptions]
  split
  · exact ⟨_, rfl⟩
  · split <;> exact ⟨_, rfl⟩

theorem selected_evicts (w : Work K) (c : Cache K) (o : Opt) (h : Selected w c o) :
    o.evicts = if c.size > w.sumSizes then 0 else w.nDest := by
  unfold Selected at h
  rw [select_buildOptions] at h
  split at h
  · rename_i hc
    rw [if_pos hc]
    simp only [Option.some_inj] at h
    rw [← h]
    rfl
  · rename_i hc
    rw [if_neg hc]
    split at h <;> simp only [Option.some_inj] at h <;> rw [← h] <;> rfl

theorem selected_less (w : Work K) (c c' : Cache K) (o o' : Opt) (ht : IsTails w.ds c.tails) (ht' : IsTails w.ds c'.tails)
    (hs : c.size ≤ c'.size) (h : Selected w c o) (h' : Selected w c' o') : Less o o' := by
  refine ⟨C19_larger_cache_misses_less _ _ _ _ _ _ _ _ _ _ _ _ ht ht' hs o o' h h', ?_⟩
  rw [selected_evicts w c o h, selected_evicts w c' o' h']
  split <;> split <;> omega

theorem traffic_cons (w : Work K) (c : Cache K) (cs : List (Cache K)) (o : Opt) (os : List Opt) (h : Selected w c o)
    (hs : traffic w cs = some os) : traffic w (c :: cs) = some (o :: os) := by
  unfold traffic desymbolize at *
  rw [List.map_cons, List.mapM_cons, hs]
  unfold Selected at h
  rw [h]
  rfl

theorem traffic_selected (w : Work K) (cs : List (Cache K)) :
    ∃ os, traffic w cs = some os ∧ List.Forall₂ (Selected w) cs os := by
  induction cs with
  | nil => exact ⟨[], rfl, .nil⟩
  | cons c cs ih =>
    obtain ⟨os, h, hf⟩ := ih
    obtain ⟨o, ho⟩ := selected_exists w c
    exact ⟨o :: os, traffic_cons w c cs o os ho h, .cons ho hf⟩

theorem traffic_less (w : Work K) (cs cs' : List (Cache K)) (h : Larger w cs cs') (os os' : List Opt)
    (ho : List.Forall₂ (Selected w) cs os) (ho' : List.Forall₂ (Selected w) cs' os') : List.Forall₂ Less os os' := by
  induction h generalizing os os' with
  | nil => cases ho; cases ho'; exact .nil
  | cons hc _ ih =>
    cases ho with
    | cons h1 h2 =>
      cases ho' with
      | cons h1' h2' => exact .cons (selected_less w _ _ _ _ hc.1 hc.2.1 hc.2.2 h1 h1') (ih _ _ h2 h2')

/-! ### Counts -/

/-- Entries of the second list are at most those of the first, and none is negative. -/
def Below (l l' : List ℚ) : Prop := List.Forall₂ (fun x x' => 0 ≤ x' ∧ x' ≤ x) l l'

theorem below_get {l l' : List ℚ} (h : Below l l') (i : Nat) (x : ℚ) (hx : l[i]? = some x) :
    ∃ x', l'[i]? = some x' ∧ 0 ≤ x' ∧ x' ≤ x := by
  induction h generalizing i with
  | nil => simp at hx
  | @cons a b l₁ l₂ hc _ ih =>
    cases i with
    | zero => simp only [List.getElem?_cons_zero, Option.some_inj] at hx; subst hx; exact ⟨b, by simp, hc⟩
    | succ i => simpa using ih i (by simpa using hx)

theorem loads_below {os os' : List Opt} (h : List.Forall₂ Less os os') :
    Below (counts (getLoads os)) (counts (getLoads os')) := by
  unfold counts getLoads
  simp only [List.map_cons, List.map_map]
  refine .cons (by simp) ?_
  induction h with
  | nil => exact .nil
  | cons hc _ ih => exact .cons (by simpa using hc.1) ih

theorem stores_below {os os' : List Opt} (h : List.Forall₂ Less os os') :
    Below (counts (getStores os)) (counts (getStores os')) := by
  unfold counts getStores
  simp only [List.map_cons, List.map_map]
  refine .cons (by simp) ?_
  induction h with
  | nil => exact .nil
  | cons hc _ ih => exact .cons (by simpa using hc.2) ih

/-! ### Times -/

theorem cacheTime_mono (cl r ld st ld' st' : ℚ) (duplex : String) (hcl : 0 ≤ cl) (hr : 0 ≤ r) (hl : ld' ≤ ld) (hs : st' ≤ st)
    (c : ℚ) (h : Transfer.cacheTime cl r ld st duplex = .ok c) :
    ∃ c', Transfer.cacheTime cl r ld' st' duplex = .ok c' ∧ c' ≤ c := by
  have ht : 0 ≤ r / cl := div_nonneg hr hcl
  unfold Transfer.cacheTime at h ⊢
  by_cases h0 : cl = 0
  · simp [h0] at h
  · simp only [h0, if_false] at h ⊢
    by_cases hd : duplex = "half-duplex"
    · simp only [hd, if_true] at h ⊢
      by_cases hz : r / cl = 0
      · simp [hz] at h
      · simp only [hz, if_false, Except.ok.injEq] at h ⊢
        exact ⟨_, rfl, h ▸ div_le_div_of_nonneg_right (add_le_add hl hs) ht⟩
    · simp only [hd, if_false] at h ⊢
      by_cases hf : duplex = "full-duplex"
      · simp only [hf, if_true] at h ⊢
        by_cases hz : r / cl = 0
        · simp [hz] at h
        · simp only [hz, if_false, Except.ok.injEq] at h ⊢
          exact ⟨_, rfl, h ▸ max_le_max (div_le_div_of_nonneg_right hl ht) (div_le_div_of_nonneg_right hs ht)⟩
      · simp [hf] at h

theorem memTime_mono (cl el : Nat) (clock b b' ld st ld' st' : ℚ) (duplex : String) (hc : 0 ≤ clock) (hb : 0 ≤ b)
    (hbb : b ≤ b') (hl0 : 0 ≤ ld') (hs0 : 0 ≤ st') (hl : ld' ≤ ld) (hs : st' ≤ st) (c : ℚ)
    (h : Transfer.memTime cl el clock b ld st duplex = .ok c) :
    ∃ c', Transfer.memTime cl el clock b' ld' st' duplex = .ok c' ∧ c' ≤ c := by
  unfold Transfer.memTime at h ⊢
  by_cases h0 : b = 0
  · simp [h0] at h
  · have hpos : 0 < b := lt_of_le_of_ne hb (Ne.symm h0)
    have h0' : b' ≠ 0 := (lt_of_lt_of_le hpos hbb).ne'
    have key : ∀ x x' : ℚ, 0 ≤ x' → x' ≤ x →
        x' * (cl / el : Nat) * el * clock / b' ≤ x * (cl / el : Nat) * el * clock / b := by
      intro x x' hx0 hx
      have h1 : x' * (cl / el : Nat) * el * clock ≤ x * (cl / el : Nat) * el * clock := by gcongr
      exact div_le_div₀ (le_trans (by positivity) h1) h1 hpos hbb
    simp only [h0, h0', if_false] at h ⊢
    by_cases hd : duplex = "half-duplex"
    · simp only [hd, if_true, Except.ok.injEq] at h ⊢
      exact ⟨_, rfl, h ▸ key _ _ (by positivity) (add_le_add hl hs)⟩
    · simp only [hd, if_false, Except.ok.injEq] at h ⊢
      exact ⟨_, rfl, h ▸ key _ _ (le_max_of_le_left hl0) (max_le_max hl hs)⟩

theorem levelPenalty_mono (l : Transfer.Level) (hp : ∀ p, l.loadPenalty = some p ∨ l.storePenalty = some p → 0 ≤ p)
    (ld st ld' st' : ℚ) (hl : ld' ≤ ld) (hs : st' ≤ st) : Transfer.levelPenalty l ld' st' ≤ Transfer.levelPenalty l ld st := by
  unfold Transfer.levelPenalty
  apply add_le_add
  · cases h : l.loadPenalty with
    | none => simp
    | some p => exact mul_le_mul_of_nonneg_right hl (hp p (.inl h))
  · cases h : l.storePenalty with
    | none => simp
    | some p => exact mul_le_mul_of_nonneg_right hs (hp p (.inr h))

/-- What a level needs for its times to be monotone. -/
structure LevelOk (l : Transfer.Level) : Prop where
  rate : ∀ r, l.rate = .perCycle r → 0 ≤ r
  penalty : ∀ p, l.loadPenalty = some p ∨ l.storePenalty = some p → 0 ≤ p

/-- The bandwidth that is found for less traffic is not lower. -/
def BwOk (bw : Nat → ℚ → ℚ → Except Transfer.Err ℚ) (loads stores loads' stores' : List ℚ) (i : Nat) : Prop :=
  ∀ ld st ld' st' b, loads[i]? = some ld → stores[i]? = some st → loads'[i]? = some ld' → stores'[i]? = some st' →
    bw i ld st = .ok b → 0 ≤ b ∧ ∃ b', bw i ld' st' = .ok b' ∧ b ≤ b'

theorem levelTime_mono (cl el : Nat) (clock : ℚ) (bw : Nat → ℚ → ℚ → Except Transfer.Err ℚ) (loads stores loads' stores' : List ℚ)
    (hc : 0 ≤ clock) (hl : Below loads loads') (hs : Below stores stores') (i : Nat) (l : Transfer.Level) (hok : LevelOk l)
    (hb : l.rate = .memory → BwOk bw loads stores loads' stores' i) (r : ℚ × ℚ)
    (h : Transfer.levelTime cl el clock bw loads stores i l = .ok r) :
    ∃ r', Transfer.levelTime cl el clock bw loads' stores' i l = .ok r' ∧ r'.1 ≤ r.1 ∧ r'.2 ≤ r.2 := by
  unfold Transfer.levelTime at h ⊢
  split at h
  · rename_i ld st hld hst
    obtain ⟨ld', hld', hl0, hll⟩ := below_get hl i ld hld
    obtain ⟨st', hst', hs0, hss⟩ := below_get hs i st hst
    rw [hld', hst']
    simp only
    cases hr : l.rate with
    | memory =>
      rw [hr] at h
      simp only [bind, Except.bind] at h ⊢
      cases hbw : bw i ld st with
      | error e => rw [hbw] at h; simp at h
      | ok b =>
        obtain ⟨hb0, b', hb', hbb⟩ := hb hr ld st ld' st' b hld hst hld' hst' hbw
        rw [hbw] at h
        rw [hb']
        simp only at h ⊢
        cases hm : Transfer.memTime cl el clock b ld st l.duplex with
        | error e => rw [hm] at h; simp at h
        | ok c =>
          obtain ⟨c', hc', hcc⟩ := memTime_mono cl el clock b b' ld st ld' st' l.duplex hc hb0 hbb hl0 hs0 hll hss c hm
          rw [hm] at h
          rw [hc']
          simp only [Except.ok.injEq] at h ⊢
          subst h
          exact ⟨_, rfl, hcc, levelPenalty_mono l hok.penalty _ _ _ _ hll hss⟩
    | perCycle q =>
      rw [hr] at h
      simp only [bind, Except.bind] at h ⊢
      cases hm : Transfer.cacheTime cl q ld st l.duplex with
      | error e => rw [hm] at h; simp at h
      | ok c =>
        obtain ⟨c', hc', hcc⟩ := cacheTime_mono cl q ld st ld' st' l.duplex (by positivity) (hok.rate q hr) hll hss c hm
        rw [hm] at h
        rw [hc']
        simp only [Except.ok.injEq] at h ⊢
        subst h
        exact ⟨_, rfl, hcc, le_refl _⟩
    | text => rw [hr] at h; simp at h
  · simp at h

theorem timesFrom_mono (cl el : Nat) (clock : ℚ) (bw : Nat → ℚ → ℚ → Except Transfer.Err ℚ) (loads stores loads' stores' : List ℚ)
    (hc : 0 ≤ clock) (hl : Below loads loads') (hs : Below stores stores') (ls : List Transfer.Level) :
    ∀ (i : Nat) (cyc cyc' : List (String × ℚ)) (pen pen' : ℚ) (r : List (String × ℚ) × ℚ), (∀ l ∈ ls, LevelOk l) →
      (∀ k l, ls[k]? = some l → l.rate = .memory → BwOk bw loads stores loads' stores' (i + k)) →
      List.Forall₂ (fun a b => b.2 ≤ a.2) cyc cyc' → pen' ≤ pen →
      Transfer.timesFrom cl el clock bw loads stores i ls cyc pen = .ok r →
      ∃ r', Transfer.timesFrom cl el clock bw loads' stores' i ls cyc' pen' = .ok r' ∧
        List.Forall₂ (fun a b => b.2 ≤ a.2) r.1 r'.1 ∧ r'.2 ≤ r.2 := by
  induction ls with
  | nil =>
    intro i cyc cyc' pen pen' r _ _ hcyc hpen h
    simp only [Transfer.timesFrom, Except.ok.injEq] at h ⊢
    subst h
    exact ⟨_, rfl, hcyc, hpen⟩
  | cons l ls ih =>
    intro i cyc cyc' pen pen' r hok hb hcyc hpen h
    simp only [Transfer.timesFrom, bind, Except.bind] at h ⊢
    cases ht : Transfer.levelTime cl el clock bw loads stores i l with
    | error e => rw [ht] at h; simp at h
    | ok x =>
      obtain ⟨x', hx', h1, h2⟩ := levelTime_mono cl el clock bw loads stores loads' stores' hc hl hs i l (hok l (by simp))
        (fun hr => by simpa using hb 0 l (by simp) hr) x ht
      rw [ht] at h
      rw [hx']
      simp only at h ⊢
      refine ih (i + 1) _ _ _ _ r (fun l hl => hok l (by simp [hl])) (fun k l' hk hr => ?_)
        (List.rel_append hcyc (.cons h1 .nil)) (add_le_add hpen h2) h
      rw [Nat.add_assoc, Nat.add_comm 1 k]
      exact hb (k + 1) l' (by simpa using hk) hr

/-! ### Bandwidths -/

theorem fold_mem (ks : List (String × Machine.Bench)) (t : Option ℚ) (c : (String × Machine.Bench) × Option ℚ) :
    (ks.foldl (Machine.bwStep t) c).1 = c.1 ∨ (ks.foldl (Machine.bwStep t) c).1 ∈ ks := by
  induction ks generalizing c with
  | nil => exact .inl rfl
  | cons k ks ih =>
    rw [List.foldl_cons]
    rcases ih (Machine.bwStep t c k) with h | h
    · rw [h]
      unfold Machine.bwStep
      split
      · exact .inr (by simp)
      · exact .inl rfl
    · exact .inr (by simp [h])

theorem selectKernel_mem (ks : List (String × Machine.Bench)) (r w : Int) (k : String × Machine.Bench)
    (h : Machine.selectKernel ks r w = some k) : k ∈ ks := by
  unfold Machine.selectKernel at h
  cases hl : ks.lookup "load" with
  | none => rw [hl] at h; simp at h
  | some info =>
    rw [hl] at h
    simp only [Option.map_some, Option.some_inj] at h
    rcases fold_mem (ks.insertionSort fun a b => a.1 ≤ b.1) (Machine.ratio r w) (("load", info), none) with he | he
    · rw [h] at he
      rw [he]
      exact Layout.lookup_mem _ _ _ hl
    · rw [h] at he
      exact (List.perm_insertionSort (fun a b : String × Machine.Bench => a.1 ≤ b.1) ks).mem_iff.1 he

theorem bandwidth_nonneg (m : Mach) (cores : Option Nat) (i : Nat) (ld st b : ℚ)
    (hk : ∀ k ∈ m.kernels, 0 < k.2.readBytes + k.2.writeBytes ∧ k.2.rwBytes ≤ k.2.writeBytes)
    (hv : ∀ l ∈ m.levels, ∀ x, l.meas = some x → ∀ r ∈ x.results, ∀ v ∈ r.2, 0 ≤ v)
    (h : bandwidth m cores i ld st = .ok b) : 0 ≤ b := by
  unfold bandwidth at h
  split at h
  · simp at h
  · rename_i l hl
    split at h
    · simp at h
    · rename_i r hr
      simp only [Except.ok.injEq] at h
      obtain ⟨bw, name⟩ := r
      simp only at h
      subst h
      obtain ⟨info, x, row, v, f, h1, h2, _, h4, rfl, h6, h7, _, _, h10⟩ := Machine.C22_measured_bandwidth _ _ _ _ _ _ _ _ _ _ hr
      have hf := hk _ (selectKernel_mem _ _ _ _ h1)
      have h1f : (1 : ℚ) ≤ f := h10 hf.1 hf.2
      have hmem : v ∈ row := by
        cases hc : cores with
        | none => exact List.mem_of_mem_take (h7 hc).1
        | some c =>
          obtain ⟨j, _, _, hj⟩ := h6 c hc
          exact List.mem_of_getElem? hj
      have hv0 := hv l (List.mem_of_getElem? hl) x h2 _ (Layout.lookup_mem _ _ _ h4) v hmem
      exact mul_nonneg hv0 (by linarith)

/-- Without stores the bandwidth does not depend on the number of loads. -/
theorem bandwidth_reading (m : Mach) (cores : Option Nat) (i : Nat) (ld ld' : ℚ) :
    bandwidth m cores i ld 0 = bandwidth m cores i ld' 0 := by
  unfold bandwidth Machine.getBandwidth Machine.selectKernel
  simp [Machine.ratio]

theorem entries (os os' : List Opt) (h : List.Forall₂ Less os os') (k : Nat) (ld st ld' st' : ℚ)
    (h1 : (counts (getLoads os))[k + 1]? = some ld) (h2 : (counts (getStores os))[k + 1]? = some st)
    (h3 : (counts (getLoads os'))[k + 1]? = some ld') (h4 : (counts (getStores os'))[k + 1]? = some st') :
    ∃ o o' : Opt, (ld = o.misses ∧ st = o.evicts) ∧ (ld' = o'.misses ∧ st' = o'.evicts) ∧ Less o o' := by
  unfold counts getLoads at h1 h3
  unfold counts getStores at h2 h4
  simp only [List.map_cons, List.getElem?_cons_succ, List.map_map, List.getElem?_map] at h1 h2 h3 h4
  induction h generalizing k with
  | nil => simp at h1
  | @cons o o' l l' hc _ ih =>
    cases k with
    | zero =>
      simp at h1 h2 h3 h4
      exact ⟨o, o', ⟨h1.symm, h2.symm⟩, ⟨h3.symm, h4.symm⟩, hc⟩
    | succ k => exact ih k (by simpa using h1) (by simpa using h2) (by simpa using h3) (by simpa using h4)

theorem same_entries (w : Work K) (caches caches' : List (Cache K)) (hc : Larger w caches caches') (os os' : List Opt)
    (hf : List.Forall₂ (Selected w) caches os) (hf' : List.Forall₂ (Selected w) caches' os') (k : Nat)
    (hk : ∀ c c', caches[k]? = some c → caches'[k]? = some c' → c'.size = c.size) (ld st ld' st' : ℚ)
    (h1 : (counts (getLoads os))[k + 1]? = some ld) (h2 : (counts (getStores os))[k + 1]? = some st)
    (h3 : (counts (getLoads os'))[k + 1]? = some ld') (h4 : (counts (getStores os'))[k + 1]? = some st') :
    ld' = ld ∧ st' = st := by
  unfold counts getLoads at h1 h3
  unfold counts getStores at h2 h4
  simp only [List.map_cons, List.getElem?_cons_succ, List.map_map, List.getElem?_map] at h1 h2 h3 h4
  induction hc generalizing k os os' with
  | nil => cases hf; simp at h1
  | @cons c c' l l' hcc _ ih =>
    cases hf with
    | @cons _ o _ os ho hos =>
      cases hf' with
      | @cons _ o' _ os' ho' hos' =>
        cases k with
        | zero =>
          have hsz := hk c c' (by simp) (by simp)
          have a := selected_less w c c' o o' hcc.1 hcc.2.1 hsz.ge ho ho'
          have b := selected_less w c' c o' o hcc.2.1 hcc.1 hsz.le ho' ho
          simp at h1 h2 h3 h4
          rw [← h1, ← h2, ← h3, ← h4, le_antisymm a.1 b.1, le_antisymm a.2 b.2]
          exact ⟨rfl, rfl⟩
        | succ k =>
          exact ih os os' hos hos' k (fun c c' h h' => hk c c' (by simpa using h) (by simpa using h')) (by simpa using h1)
            (by simpa using h2) (by simpa using h3) (by simpa using h4)

theorem reading_ok (m : Mach) (hk : ∀ k ∈ m.kernels, 0 < k.2.readBytes + k.2.writeBytes ∧ k.2.rwBytes ≤ k.2.writeBytes)
    (hv : ∀ l ∈ m.levels, ∀ x, l.meas = some x → ∀ r ∈ x.results, ∀ v ∈ r.2, 0 ≤ v) (cores : Option Nat) (w : Work K)
    (hw : w.nDest = 0) (caches caches' : List (Cache K)) (os os' : List Opt) (hf : List.Forall₂ (Selected w) caches os)
    (hf' : List.Forall₂ (Selected w) caches' os') (i : Nat) :
    BwOk (bandwidth m cores) (counts (getLoads os)) (counts (getStores os)) (counts (getLoads os')) (counts (getStores os')) i := by
  have hz : ∀ (cs : List (Cache K)) (os : List Opt), List.Forall₂ (Selected w) cs os → ∀ x ∈ counts (getStores os), x = 0 := by
    intro cs os h
    unfold counts getStores
    induction h with
    | nil => simp
    | @cons c o _ _ hc _ ih =>
      have : o.evicts = 0 := by rw [selected_evicts w c o hc, hw]; split <;> rfl
      intro x hx
      simp only [List.map_cons, List.mem_cons] at hx
      rcases hx with rfl | rfl | hx
      · simp
      · simp [this]
      · exact ih x (by simp only [List.map_cons, List.mem_cons]; exact .inr hx)
  intro ld st ld' st' b _ h2 _ h4 hbw
  refine ⟨bandwidth_nonneg m cores i ld st b hk hv hbw, b, ?_, le_refl _⟩
  rw [hz _ _ hf st (List.mem_of_getElem? h2)] at hbw
  rw [hz _ _ hf' st' (List.mem_of_getElem? h4), bandwidth_reading m cores i ld' ld]
  exact hbw

theorem steady_ok (m : Mach) (hm : Sane m) (cores : Option Nat) (os os' : List Opt) (h : List.Forall₂ Less os os') (i : Nat)
    (hi : i ≠ 0) (hs : Steady m cores i) :
    BwOk (bandwidth m cores) (counts (getLoads os)) (counts (getStores os)) (counts (getLoads os')) (counts (getStores os')) i := by
  intro ld st ld' st' b h1 h2 h3 h4 hb
  obtain ⟨k, rfl⟩ := Nat.exists_eq_succ_of_ne_zero hi
  refine ⟨bandwidth_nonneg m cores _ ld st b hm.kernels hm.measured hb, ?_⟩
  obtain ⟨o, o', ho, ho', hl⟩ := entries os os' h k ld st ld' st' h1 h2 h3 h4
  obtain ⟨rfl, rfl⟩ := ho
  obtain ⟨rfl, rfl⟩ := ho'
  exact hs _ _ _ _ b hl.1 hl.2 hb

/-- Only benchmarks that write nothing: one bandwidth for all traffic. -/
theorem steady_of_reading (m : Mach) (h : ∀ k ∈ m.kernels, k.2.writeStreams = 0) (cores : Option Nat) (i : Nat) : Steady m cores i := by
  intro ld st ld' st' b _ _ hb
  refine ⟨b, ?_, le_refl _⟩
  have hsel : ∀ r w r' w' : Int, Machine.selectKernel m.kernels r w = Machine.selectKernel m.kernels r' w' := by
    intro r w r' w'
    cases hl : m.kernels.lookup "load" with
    | none => simp [Machine.selectKernel, hl]
    | some info => rw [Machine.C22_only_reading_kernels _ info hl _ _ h, Machine.C22_only_reading_kernels _ info hl _ _ h]
  unfold bandwidth Machine.getBandwidth at hb ⊢
  rw [hsel _ _ (ld : ℚ).num (st : ℚ).num]
  exact hb

/-! ### Composition -/

/-- The state of the composition for at most as long times. -/
structure Under (s s' : Compose) : Prop where
  ol : List.Forall₂ (fun a b => b ≤ a) s.ol s'.ol
  nol : List.Forall₂ (fun a b => b ≤ a) s.nol s'.nol
  region : s'.region = s.region

theorem step_mono (s s' t : Compose) (a b : Bool × ℚ) (hc : b.1 = a.1 ∧ b.2 ≤ a.2) (hs : Under s s')
    (h : composeStep s a = .ok t) : ∃ t', composeStep s' b = .ok t' ∧ Under t t' := by
  unfold composeStep at h ⊢
  rw [hc.1, hs.region]
  by_cases ha : a.1 = true
  · by_cases hr : s.region = true
    · rw [if_pos ha, if_pos hr] at h; simp at h
    · rw [if_pos ha, if_neg hr] at h ⊢
      simp only [Except.ok.injEq] at h ⊢
      subst h
      exact ⟨_, rfl, List.rel_append hs.ol (.cons hc.2 .nil), hs.nol, rfl⟩
  · rw [if_neg ha] at h ⊢
    simp only [Except.ok.injEq] at h ⊢
    subst h
    exact ⟨_, rfl, hs.ol, List.rel_append hs.nol (.cons hc.2 .nil), rfl⟩

theorem fold_mono (ls ls' : List (Bool × ℚ)) (h : List.Forall₂ (fun a b => b.1 = a.1 ∧ b.2 ≤ a.2) ls ls') :
    ∀ s s' t, Under s s' → ls.foldlM composeStep s = .ok t → ∃ t', ls'.foldlM composeStep s' = .ok t' ∧ Under t t' := by
  induction h with
  | nil =>
    intro s s' t hs h
    simp only [List.foldlM_nil, pure, Except.pure, Except.ok.injEq] at h ⊢
    subst h
    exact ⟨_, rfl, hs⟩
  | @cons a b _ _ hc _ ih =>
    intro s s' t hs h
    rw [List.foldlM_cons] at h ⊢
    simp only [bind, Except.bind] at h ⊢
    cases hx : composeStep s a with
    | error e => rw [hx] at h; simp at h
    | ok x =>
      obtain ⟨x', hx', hu⟩ := step_mono s s' x a b hc hs hx
      rw [hx] at h
      rw [hx']
      exact ih x x' t hu h

theorem sum_mono {l l' : List ℚ} (h : List.Forall₂ (fun a b => b ≤ a) l l') : l'.sum ≤ l.sum := by
  induction h with
  | nil => simp
  | cons hc _ ih => simpa using add_le_add hc ih

theorem foldl_max_mono {l l' : List ℚ} (h : List.Forall₂ (fun a b => b ≤ a) l l') :
    ∀ x x' : ℚ, x' ≤ x → l'.foldl max x' ≤ l.foldl max x := by
  induction h with
  | nil => intro x x' hx; simpa using hx
  | cons hc _ ih => intro x x' hx; exact ih _ _ (max_le_max hx hc)

theorem compose_mono (tComp tReg : ℚ) (o : Bool) (ls ls' : List (Bool × ℚ))
    (h : List.Forall₂ (fun a b => b.1 = a.1 ∧ b.2 ≤ a.2) ls ls') (p p' : ℚ) (hp : p' ≤ p) (r : List ℚ × List ℚ)
    (hr : compose tComp tReg o ls p = .ok r) :
    ∃ r', compose tComp tReg o ls' p' = .ok r' ∧ total r'.1 r'.2 ≤ total r.1 r.2 := by
  unfold compose at hr ⊢
  have hrefl : Under (composeInit tComp tReg o) (composeInit tComp tReg o) :=
    ⟨List.forall₂_same.2 fun _ _ => le_refl _, List.forall₂_same.2 fun _ _ => le_refl _, rfl⟩
  cases hf : ls.foldlM composeStep (composeInit tComp tReg o) with
  | error e => rw [hf] at hr; simp at hr
  | ok t =>
    obtain ⟨t', ht', hu⟩ := fold_mono ls ls' h _ _ t hrefl hf
    rw [hf] at hr
    rw [ht']
    simp only [Except.ok.injEq] at hr ⊢
    subst hr
    refine ⟨_, rfl, ?_⟩
    unfold total
    apply foldl_max_mono hu.ol
    have hs : ∀ (q : ℚ) (l : List ℚ), (if q ≠ 0 then l ++ [q] else l).sum = l.sum + q := by
      intro q l
      by_cases hq : q = 0 <;> simp [hq]
    simp only
    rw [hs, hs]
    exact add_le_add (sum_mono hu.nol) hp

theorem zip_mono (fs : List Bool) (c c' : List (String × ℚ)) (h : List.Forall₂ (fun a b => b.2 ≤ a.2) c c') :
    List.Forall₂ (fun a b => b.1 = a.1 ∧ b.2 ≤ a.2) (fs.zip (c.map (·.2))) (fs.zip (c'.map (·.2))) := by
  induction h generalizing fs with
  | nil => simp
  | cons hc _ ih =>
    cases fs with
    | nil => simp
    | cons f fs => exact .cons ⟨rfl, hc⟩ (ih fs)

/-- The ECM prediction, given what happens to the bandwidths of the memory levels. -/
theorem ecm_mono (m : Mach) (elSize : Nat) (tComp tReg : ℚ) (w w' : Work K) (caches caches' : List (Cache K))
    (os os' : List Opt) (hos : traffic w caches = some os) (hos' : traffic w' caches' = some os')
    (hless : List.Forall₂ Less os os') (hc : 0 ≤ m.clock) (hok : ∀ l ∈ m.levels, LevelOk l.base)
    (hb : ∀ i l, m.levels[i]? = some l → l.base.rate = .memory → i ≠ 0 →
      BwOk (bandwidth m none) (counts (getLoads os)) (counts (getStores os)) (counts (getLoads os')) (counts (getStores os')) i)
    (t : ℚ) (h : ecm m elSize tComp tReg w caches = some t) :
    ∃ t', ecm m elSize tComp tReg w' caches' = some t' ∧ t' ≤ t := by
  unfold ecm at h ⊢
  rw [hos] at h
  rw [hos']
  cases hlv : m.levels with
  | nil => rw [hlv] at h; simp at h
  | cons l0 ls =>
    rw [hlv] at h
    simp only at h ⊢
    unfold Transfer.calculateCycles at h ⊢
    by_cases he : elSize = 0
    · simp [he] at h
    · simp only [he, if_false, List.map_cons, List.tail_cons] at h ⊢
      cases ht : Transfer.timesFrom m.clSize elSize m.clock (bandwidth m none) (counts (getLoads os)) (counts (getStores os)) 1
          (ls.map (·.base)) [] 0 with
      | error e => rw [ht] at h; simp at h
      | ok r =>
        obtain ⟨r', hr', h1, h2⟩ := timesFrom_mono m.clSize elSize m.clock (bandwidth m none) _ _ _ _ hc (loads_below hless)
          (stores_below hless) (ls.map (·.base)) 1 [] [] 0 0 r
          (fun l hl => by
            obtain ⟨x, hx, rfl⟩ := List.mem_map.1 hl
            exact hok x (by rw [hlv]; simp [hx]))
          (fun k l hk hr => by
            rw [List.getElem?_map] at hk
            cases hx : ls[k]? with
            | none => rw [hx] at hk; simp at hk
            | some x =>
              rw [hx] at hk
              simp only [Option.map_some, Option.some_inj] at hk
              refine hb (1 + k) x ?_ (by rw [hk]; exact hr) (by omega)
              rw [hlv, Nat.add_comm]
              simpa using hx)
          .nil (le_refl _) ht
        rw [ht] at h
        rw [hr']
        simp only at h ⊢
        cases hcomp : compose tComp tReg l0.overlap ((ls.map (·.overlap)).zip (r.1.map (·.2))) r.2 with
        | error e => rw [hcomp] at h; simp at h
        | ok x =>
          obtain ⟨x', hx', hle⟩ := compose_mono tComp tReg l0.overlap _ _ (zip_mono (ls.map (·.overlap)) r.1 r'.1 h1) r.2 r'.2 h2 x hcomp
          rw [hcomp] at h
          rw [hx']
          simp only [Option.some_inj] at h ⊢
          subst h
          exact ⟨_, rfl, hle⟩

/-! ### Roofline -/

theorem levelPerf_mono (cl el : Nat) (ld st b ld' st' b' : ℚ) (hl0 : 0 ≤ ld') (hs0 : 0 ≤ st') (hl : ld' ≤ ld) (hs : st' ≤ st)
    (hb : 0 ≤ b) (hbb : b ≤ b') : Transfer.levelPerf cl el ld st b ≤ Transfer.levelPerf cl el ld' st' b' := by
  unfold Transfer.levelPerf
  simp only
  by_cases h' : ld' * cl + st' * cl = 0
  · rw [if_pos h']; exact le_top
  · have hle : ld' * cl + st' * cl ≤ ld * cl + st * cl := by gcongr
    have h0 : 0 ≤ ld' * cl + st' * cl := by positivity
    have hpos : 0 < ld' * cl + st' * cl := lt_of_le_of_ne h0 (Ne.symm h')
    have hpos2 := lt_of_lt_of_le hpos hle
    rw [if_neg h', if_neg hpos2.ne', WithTop.coe_le_coe, one_div_div, one_div_div]
    have hq : (el : ℚ) / (ld * cl + st * cl) ≤ el / (ld' * cl + st' * cl) := div_le_div_of_nonneg_left (by positivity) hpos hle
    exact mul_le_mul hbb hq (div_nonneg (by positivity) hpos2.le) (le_trans hb hbb)

theorem roofStep_min (rest : List (WithTop ℚ)) : ∀ (n k : Nat) (p : WithTop ℚ),
    (rest.foldl roofStep (n, k, p)).2.2 = rest.foldl min p := by
  induction rest with
  | nil => intro n k p; rfl
  | cons x xs ih =>
    intro n k p
    rw [List.foldl_cons, List.foldl_cons]
    by_cases h : x < p
    · rw [show roofStep (n, k, p) x = (n + 1, n, x) by simp [roofStep, h], ih, min_eq_right h.le]
    · rw [show roofStep (n, k, p) x = (n + 1, k, p) by simp [roofStep, h], ih, min_eq_left (not_lt.1 h)]

theorem foldl_min_mono {l l' : List (WithTop ℚ)} (h : List.Forall₂ (fun a b => a ≤ b) l l') :
    ∀ x x' : WithTop ℚ, x ≤ x' → l.foldl min x ≤ l'.foldl min x' := by
  induction h with
  | nil => intro x x' hx; simpa using hx
  | cons hc _ ih => intro x x' hx; exact ih _ _ (min_le_min hx hc)

theorem mapM_mono {α : Type} {R : α → α → Prop} (f f' : Nat → Option α) (l : List Nat) (r : List α)
    (hf : ∀ i ∈ l, ∀ x, f i = some x → ∃ x', f' i = some x' ∧ R x x') (h : l.mapM f = some r) :
    ∃ r', l.mapM f' = some r' ∧ List.Forall₂ R r r' := by
  induction l generalizing r with
  | nil => simp only [List.mapM_nil, pure, Option.some_inj] at h ⊢; subst h; exact ⟨_, rfl, .nil⟩
  | cons i is ih =>
    rw [List.mapM_cons] at h ⊢
    cases hx : f i with
    | none => rw [hx] at h; simp at h
    | some x =>
      cases hr : is.mapM f with
      | none => rw [hx, hr] at h; simp at h
      | some xs =>
        obtain ⟨x', hx', hxx⟩ := hf i (by simp) x hx
        obtain ⟨xs', hxs', hss⟩ := ih xs (fun j hj => hf j (by simp [hj])) hr
        rw [hx, hr] at h
        rw [hx', hxs']
        simp only [bind, Option.bind, pure, Option.some_inj] at h ⊢
        subst h
        exact ⟨_, rfl, .cons hxx hss⟩

theorem cacheAccess_mono (cl elSize reads writes : Nat) (bw : ℚ) (ls ls' : List (ℚ × ℚ × ℚ))
    (h : List.Forall₂ (fun a b => (0 ≤ b.1 ∧ b.1 ≤ a.1) ∧ (0 ≤ b.2.1 ∧ b.2.1 ≤ a.2.1) ∧ 0 ≤ a.2.2 ∧ a.2.2 ≤ b.2.2) ls ls')
    (r : List (WithTop ℚ) × Nat × WithTop ℚ) (hr : Transfer.cacheAccess cl elSize reads writes bw ls = .ok r) :
    ∃ r', Transfer.cacheAccess cl elSize reads writes bw ls' = .ok r' ∧ r.2.2 ≤ r'.2.2 := by
  unfold Transfer.cacheAccess at hr ⊢
  by_cases he : elSize = 0
  · simp [he] at hr
  · simp only [he, if_false] at hr ⊢
    by_cases hc : cl / elSize = 0
    · simp [hc] at hr
    · simp only [hc, if_false] at hr ⊢
      cases hp : Transfer.l1Perf (cl / elSize) elSize reads writes bw with
      | none => rw [hp] at hr; simp at hr
      | some p =>
        rw [hp] at hr
        simp only [Except.ok.injEq] at hr ⊢
        subst hr
        refine ⟨_, rfl, ?_⟩
        simp only
        rw [roofStep_min, roofStep_min]
        refine foldl_min_mono ?_ _ _ (le_refl _)
        clear hp
        induction h with
        | nil => exact .nil
        | cons hx _ ih =>
          exact .cons (levelPerf_mono _ _ _ _ _ _ _ _ hx.1.1 hx.2.1.1 hx.1.2 hx.2.1.2 hx.2.2.1 hx.2.2.2) ih

/-- The Roofline prediction, given what happens to the bandwidths. -/
theorem roofline_mono (m : Mach) (elSize cores reads writes : Nat) (w w' : Work K) (caches caches' : List (Cache K))
    (os os' : List Opt) (hos : traffic w caches = some os) (hos' : traffic w' caches' = some os')
    (hless : List.Forall₂ Less os os')
    (hb : ∀ i, i < m.levels.length → i ≠ 0 → BwOk (bandwidth m (some cores)) (counts (getLoads os)) (counts (getStores os))
      (counts (getLoads os')) (counts (getStores os')) i)
    (p : WithTop ℚ) (h : roofline m elSize cores reads writes w caches = some p) :
    ∃ p', roofline m elSize cores reads writes w' caches' = some p' ∧ p ≤ p' := by
  unfold roofline at h ⊢
  rw [hos] at h
  rw [hos']
  simp only at h ⊢
  cases h1 : bandwidth m (some cores) 0 ((reads + writes : Nat) : ℚ) 0 with
  | error e => rw [h1] at h; simp at h
  | ok b =>
    rw [h1] at h
    cases h2 : (List.range (m.levels.length - 1)).mapM fun i =>
        roofLevel m cores (counts (getLoads os)) (counts (getStores os)) (i + 1) with
    | none => rw [h2] at h; simp at h
    | some ls =>
      obtain ⟨ls', hls', hf⟩ := mapM_mono (R := fun a b : ℚ × ℚ × ℚ =>
          (0 ≤ b.1 ∧ b.1 ≤ a.1) ∧ (0 ≤ b.2.1 ∧ b.2.1 ≤ a.2.1) ∧ 0 ≤ a.2.2 ∧ a.2.2 ≤ b.2.2) _
        (fun i => roofLevel m cores (counts (getLoads os')) (counts (getStores os')) (i + 1)) _ ls (by
          intro i hi x hx
          have hlt := List.mem_range.1 hi
          unfold roofLevel at hx ⊢
          split at hx
          · rename_i ld st hld hst
            obtain ⟨ld', hld', hl⟩ := below_get (loads_below hless) _ ld hld
            obtain ⟨st', hst', hs⟩ := below_get (stores_below hless) _ st hst
            split at hx
            · rename_i b hbw
              obtain ⟨hb0, b', hb', hbb⟩ := hb (i + 1) (by omega) (by omega) ld st ld' st' b hld hst hld' hst' hbw
              simp only [Option.some_inj] at hx
              subst hx
              refine ⟨(ld', st', b'), ?_, hl, hs, hb0, hbb⟩
              rw [hld', hst']
              simp only
              rw [hb']
            · simp at hx
          · simp at hx) h2
      rw [h2] at h
      rw [hls']
      simp only at h ⊢
      cases hr : Transfer.cacheAccess m.clSize elSize reads writes b ls with
      | error e => rw [hr] at h; simp at h
      | ok r =>
        obtain ⟨r', hr', hle⟩ := cacheAccess_mono m.clSize elSize reads writes b ls ls' hf r hr
        rw [hr] at h
        rw [hr']
        simp only [Option.some_inj] at h ⊢
        subst h
        exact ⟨_, rfl, hle⟩

end Verif.Predict
