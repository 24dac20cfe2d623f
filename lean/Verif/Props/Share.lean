import Verif.Lemmas.Share
import Verif.Props.Predict

/-!
C145: A core is given its share of each cache, and more cores never leave it a larger one.
-/

namespace Verif.Share

open Verif.LayerCond Verif.Predict

variable {K : Type} [LinearOrder K]

/-- C145, the share, part: a private cache is given whole, a cache shared by a NUMA domain, or by no fewer cores than are
used, is divided evenly. Missing: other caches (`C145_negation_group`, `C145_negation_domain`). -/
theorem C145_share_partial (entries : List Entry) (numaCores cores : Nat) (hc : 0 < cores) (hn : 0 < numaCores)
    (l : List Nat) (h : sizes entries numaCores cores = some l) (i : Nat) (e : Entry) (he : entries[i]? = some e)
    (hg : e.coresPerGroup = 1 ∨ e.coresPerGroup = numaCores ∨ (cores ≤ e.coresPerGroup ∧ cores ≤ numaCores)) :
    ∃ s, l[i]? = some s ∧ IsShare e (users cores e) s := by
  rw [sizes_some _ _ _ _ h hc hn, List.getElem?_map, he]
  refine ⟨_, rfl, ?_⟩
  show IsShare e _ (e.sets / divisor numaCores cores e * e.ways * e.clSize)
  have hd : divisor numaCores cores e = users cores e := by
    unfold divisor users
    split <;> omega
  have hp := divisor_pos numaCores cores (by omega) e
  rw [← hd]
  generalize divisor numaCores cores e = d at hp
  unfold IsShare whole
  have h1 := Nat.div_mul_le_self e.sets d
  have h2 : e.sets ≤ e.sets / d * d + (d - 1) := by
    have := Nat.lt_div_mul_add (a := e.sets) hp
    omega
  constructor
  · calc e.sets / d * e.ways * e.clSize * d = e.sets / d * d * e.ways * e.clSize := by ring
      _ ≤ _ := Nat.mul_le_mul_right _ (Nat.mul_le_mul_right _ h1)
  · calc e.sets * e.ways * e.clSize ≤ (e.sets / d * d + (d - 1)) * e.ways * e.clSize :=
        Nat.mul_le_mul_right _ (Nat.mul_le_mul_right _ h2)
      _ = _ := by ring

/-- C145, part: the shares of the cores of a group fit into the cache as long as no cache is shared by more cores than a
NUMA domain has. Missing: larger groups (`C145_negation_domain`). -/
theorem C145_fits_partial (entries : List Entry) (numaCores cores : Nat) (hc : 0 < cores) (hn : 0 < numaCores)
    (l : List Nat) (h : sizes entries numaCores cores = some l) (i : Nat) (e : Entry) (he : entries[i]? = some e)
    (hg : e.coresPerGroup ≤ numaCores) :
    ∃ s, l[i]? = some s ∧ s * users cores e ≤ whole e := by
  rw [sizes_some _ _ _ _ h hc hn, List.getElem?_map, he]
  refine ⟨_, rfl, ?_⟩
  have hd : users cores e ≤ divisor numaCores cores e := by
    unfold divisor users
    split <;> omega
  unfold whole
  calc e.sets / divisor numaCores cores e * e.ways * e.clSize * users cores e
      ≤ e.sets / divisor numaCores cores e * e.ways * e.clSize * divisor numaCores cores e := Nat.mul_le_mul_left _ hd
    _ = e.sets / divisor numaCores cores e * divisor numaCores cores e * e.ways * e.clSize := by ring
    _ ≤ _ := Nat.mul_le_mul_right _ (Nat.mul_le_mul_right _ (Nat.div_mul_le_self _ _))

/-- C145: with more cores, no cache of a core is larger. -/
theorem C145_more_cores (entries : List Entry) (numaCores cores cores' : Nat) (hn : 0 < numaCores) (hc : 0 < cores)
    (h : cores ≤ cores') :
    ∃ l l', sizes entries numaCores cores = some l ∧ sizes entries numaCores cores' = some l' ∧
      l.length = entries.length ∧ List.Forall₂ (fun s s' => s' ≤ s) l l' := by
  refine ⟨_, _, sizes_eq _ _ _ (by omega), sizes_eq _ _ _ (by omega), by simp, ?_⟩
  rw [List.forall₂_map_left_iff, List.forall₂_map_right_iff]
  exact List.forall₂_same.2 fun e _ => share_mono numaCores cores cores' h (by omega) e

/-- C145: more cores than a NUMA domain has change nothing. -/
theorem C145_saturated (entries : List Entry) (numaCores cores : Nat) (hn : 0 < numaCores) (h : numaCores ≤ cores) :
    sizes entries numaCores cores = sizes entries numaCores numaCores := by
  rw [sizes_eq _ _ _ (by omega), sizes_eq _ _ _ (by omega)]
  simp [divisor, Nat.min_eq_right h]

/-- C145: with more cores, a core has at least as many misses and evicts in each cache. -/
theorem C145_transfers (w : Work K) (entries : List Entry) (numaCores cores cores' : Nat) (hn : 0 < numaCores) (hc : 0 < cores)
    (h : cores ≤ cores') (orders orders' : List (Order K)) (ho : Ordered w entries orders) (ho' : Ordered w entries orders') :
    ∃ os os', traffic w entries numaCores cores orders = some os ∧ traffic w entries numaCores cores' orders' = some os' ∧
      os.length = entries.length ∧
      List.Forall₂ (fun o o' => o.misses ≤ o'.misses ∧ o.evicts ≤ o'.evicts) os os' := by
  obtain ⟨l, l', h1, h2, h3, h4⟩ := C145_more_cores entries numaCores cores cores' hn hc h
  have hl := caches_larger w l l' orders orders' h4 (by rw [ho.1, h3]) (by rw [ho'.1, h3]) ho.2 ho'.2
  obtain ⟨os, hos, hf⟩ := traffic_selected w (caches orders l)
  obtain ⟨os', hos', hf'⟩ := traffic_selected w (caches orders' l')
  refine ⟨os, os', by simp [traffic, h1, hos], by simp [traffic, h2, hos'], ?_, ?_⟩
  · rw [← hf.length_eq, caches, List.length_zipWith, ho.1, h3, min_self]
  · exact (traffic_less w _ _ hl os' os hf' hf).flip

/-- C145, ECM, part: with more cores, a core does not need fewer cycles, as long as the bandwidths of the memory do not fall
with the traffic. Missing: measured bandwidths (`C145_negation_ecm`). -/
theorem C145_ecm_partial (m : Mach) (hm : Sane m) (elSize : Nat) (tComp tReg : ℚ) (w : Work K) (entries : List Entry)
    (numaCores cores cores' : Nat) (hn : 0 < numaCores) (hc : 0 < cores) (h : cores ≤ cores')
    (orders orders' : List (Order K)) (ho : Ordered w entries orders) (ho' : Ordered w entries orders')
    (hb : ∀ i l, m.levels[i]? = some l → l.base.rate = .memory → Steady m none i)
    (t' : ℚ) (ht : ecm m elSize tComp tReg w entries numaCores cores' orders' = some t') :
    ∃ t, ecm m elSize tComp tReg w entries numaCores cores orders = some t ∧ t ≤ t' := by
  obtain ⟨l, l', h1, h2, h3, h4⟩ := C145_more_cores entries numaCores cores cores' hn hc h
  have hl := caches_larger w l l' orders orders' h4 (by rw [ho.1, h3]) (by rw [ho'.1, h3]) ho.2 ho'.2
  unfold ecm at ht ⊢
  rw [h2] at ht
  rw [h1]
  exact C138_ecm_partial m hm elSize tComp tReg w _ _ hl hb t' ht

/-! ### Witnesses -/

/-- The caches of `examples/machine-files/Zen2_EPYC-7452.yml`: four cores share a third level, eight are in a NUMA domain. -/
def zen2 : List Entry := [⟨64, 8, 64, 1⟩, ⟨1024, 8, 64, 1⟩, ⟨16384, 16, 64, 4⟩]

/-- C145 fails where a cache is shared by fewer cores than are in a NUMA domain: with eight cores, each of the four cores of
a group is given an eighth of the third level. -/
theorem C145_negation_group : sizes zen2 8 8 = some [32768, 524288, 2097152] ∧ users 8 ⟨16384, 16, 64, 4⟩ = 4 ∧
    whole ⟨16384, 16, 64, 4⟩ = 8 * 2097152 ∧ ¬ IsShare ⟨16384, 16, 64, 4⟩ 4 2097152 := by
  unfold IsShare
  decide

/-- C145 fails where a cache is shared by more cores than are in a NUMA domain (a third level per socket and two domains):
the shares of 20 cores add up to twice the cache. -/
theorem C145_negation_domain : sizes [⟨64, 8, 64, 1⟩, ⟨1024, 16, 64, 1⟩, ⟨40960, 11, 64, 20⟩] 10 20 =
      some [32768, 1048576, 2883584] ∧ users 20 ⟨40960, 11, 64, 20⟩ = 20 ∧
    2883584 * 20 = 2 * whole ⟨40960, 11, 64, 20⟩ := by
  decide

/-- The caches of `examples/machine-files/HaswellEP_E5-2695v3.yml`. -/
def haswellCaches : List Entry := [⟨64, 8, 64, 1⟩, ⟨512, 8, 64, 1⟩, ⟨35840, 16, 64, 14⟩]

def orders : List (Order Nat) := List.replicate 3 ⟨false, fun _ => false, [row]⟩

theorem orders_ok : Ordered work haswellCaches orders := by
  refine ⟨rfl, fun o ho => ?_⟩
  rw [List.eq_of_mem_replicate ho]
  exact ⟨by decide, by intro d; rfl, by simp⟩

/-- C145 fails for the ECM model: on the machine of C138 the kernel of C138 is predicted to need fewer cycles per core with
two cores than with one, although one more cacheline is transferred from memory. -/
theorem C145_negation_ecm : Sane haswell ∧ Ordered work haswellCaches orders ∧
    ∃ t t', ecm haswell 8 4 4 work haswellCaches 14 1 orders = some t ∧
      ecm haswell 8 4 4 work haswellCaches 14 2 orders = some t' ∧ t' < t := by
  refine ⟨haswell_sane, orders_ok, ?_⟩
  have h : (ecm haswell 8 4 4 work haswellCaches 14 1 orders).isSome ∧ (ecm haswell 8 4 4 work haswellCaches 14 2 orders).isSome ∧
      (ecm haswell 8 4 4 work haswellCaches 14 2 orders).getD 0 < (ecm haswell 8 4 4 work haswellCaches 14 1 orders).getD 0 := by
    decide +kernel
  obtain ⟨h1, h2, h3⟩ := h
  obtain ⟨t, ht⟩ := Option.isSome_iff_exists.1 h1
  obtain ⟨t', ht'⟩ := Option.isSome_iff_exists.1 h2
  rw [ht, ht'] at h3
  exact ⟨t, t', ht, ht', h3⟩

/-! ### Examples -/

example : ∃ s, [32768, 262144, 4074 * 1024][2]? = some s ∧ IsShare ⟨36667, 16, 64, 14⟩ (users 9 ⟨36667, 16, 64, 14⟩) s :=
  C145_share_partial [⟨64, 8, 64, 1⟩, ⟨512, 8, 64, 1⟩, ⟨36667, 16, 64, 14⟩] 14 9 (by decide) (by decide) _ (by decide) 2 _ rfl
    (by decide)

example : ∃ s, [32768, 524288, 2097152][2]? = some s ∧ s * users 8 ⟨16384, 16, 64, 4⟩ ≤ whole ⟨16384, 16, 64, 4⟩ :=
  C145_fits_partial zen2 8 8 (by decide) (by decide) _ (by decide) 2 _ rfl (by decide)

example : sizes haswellCaches 14 1 = some [32768, 262144, 36700160] ∧ sizes haswellCaches 14 3 = some [32768, 262144, 12232704] ∧
    sizes haswellCaches 14 20 = sizes haswellCaches 14 14 := by decide

example : ∃ os os', traffic work haswellCaches 14 1 orders = some os ∧ traffic work haswellCaches 14 2 orders = some os' ∧
    os.length = 3 ∧ List.Forall₂ (fun o o' => o.misses ≤ o'.misses ∧ o.evicts ≤ o'.evicts) os os' :=
  C145_transfers work haswellCaches 14 1 2 (by decide) (by decide) (by decide) orders orders orders_ok orders_ok

example : ((traffic work haswellCaches 14 1 orders).getD []).map (·.misses) = [6, 6, 5] ∧
    ((traffic work haswellCaches 14 2 orders).getD []).map (·.misses) = [6, 6, 6] := by decide

example : ∃ t, ecm loadOnly 8 4 4 work haswellCaches 14 1 orders = some t ∧
    t ≤ (ecm loadOnly 8 4 4 work haswellCaches 14 2 orders).getD 0 :=
  C145_ecm_partial loadOnly loadOnly_sane 8 4 4 work haswellCaches 14 1 2 (by decide) (by decide) (by decide) orders orders
    orders_ok orders_ok (fun i _ _ _ => steady_of_reading loadOnly (by decide) none i) _ (by decide +kernel)

end Verif.Share
