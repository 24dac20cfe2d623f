import Verif.Lemmas.Regions

/-!
C157: the regions measured by the stand-alone benchmark.
-/

namespace Verif.Regions

open Verif.Analyzer

variable {α β γ δ : Type}

/-- C157: each region that was asked for is measured once, and no other; it has its own runtime, and its own loops, repetitions and operations or else those
given for no region. -/
theorem C157_regions (q : Request) (hq : q.Proper) (i : Info α β γ) (found : List (List Char)) (runtime : List (List Char × δ))
    (out : List (Measured α β γ δ)) (h : measured q.arg i found runtime = .ok out) :
    (out.map (·.region)).Nodup ∧ (∀ r, r ∈ out.map (·.region) ↔ q.Wanted found r) ∧
      ∀ m ∈ out, m.region ∈ found ∧ runtime.lookup m.region = some m.runtime ∧ given i.loops m.region = some m.loops ∧
        given i.repetitions m.region = some m.repetitions ∧ given i.flops m.region = some m.flops := by
  obtain ⟨rs, hn, hw, ht⟩ := treated q hq i found runtime
  split at ht
  · next hc =>
    obtain ⟨j, hj, he⟩ := ht
    rw [he, mapM_ok] at h
    have hs := check_spec rs i j hj
    have hmap : out.map (·.region) = rs := by
      clear hs hj he hc hw hn
      induction h with
      | nil => rfl
      | cons h1 _ ih => rw [List.map_cons, ih, ((one_ok_iff _ _ _ _).1 h1).1]
    rw [hmap]
    refine ⟨hn, hw, fun m hm => ?_⟩
    have hr : m.region ∈ rs := by rw [← hmap]; exact List.mem_map_of_mem hm
    have hone : one j runtime m.region = .ok m := by
      clear hs hj he hc hw hn hmap hr
      induction h with
      | nil => simp at hm
      | cons h1 _ ih =>
        rcases List.mem_cons.1 hm with rfl | hm
        · rw [((one_ok_iff _ _ _ _).1 h1).1]
          exact h1
        · exact ih hm
    obtain ⟨-, h1, h2, h3, h4⟩ := (one_ok_iff _ _ _ _).1 hone
    obtain ⟨s1, s2, s3⟩ := hs.1 m.region hr
    exact ⟨hc.1 _ hr, h1, s1.symm.trans h2, s2.symm.trans h3, s3.symm.trans h4⟩
  · rw [ht] at h
    simp at h

/-- C157: and exactly if each region that was asked for is in the output with a runtime and everything is known about it, there is a result. -/
theorem C157_result_iff (q : Request) (hq : q.Proper) (i : Info α β γ) (found : List (List Char)) (runtime : List (List Char × δ)) :
    (∃ out, measured q.arg i found runtime = .ok out) ↔
      ∀ r, q.Wanted found r → r ∈ found ∧ (runtime.lookup r).isSome ∧ (given i.loops r).isSome ∧ (given i.repetitions r).isSome ∧
        (given i.flops r).isSome := by
  constructor
  · rintro ⟨out, h⟩ r hr
    obtain ⟨-, h2, h3⟩ := C157_regions q hq i found runtime out h
    obtain ⟨m, hm, rfl⟩ := List.mem_map.1 ((h2 r).2 hr)
    obtain ⟨a, b, c, d, e⟩ := h3 m hm
    exact ⟨a, by simp [b], by simp [c], by simp [d], by simp [e]⟩
  · intro h
    obtain ⟨rs, hn, hw, ht⟩ := treated q hq i found runtime
    have h' := fun r (hr : r ∈ rs) => h r ((hw r).1 hr)
    rw [if_pos ⟨fun r hr => (h' r hr).1, fun r hr => (h' r hr).2.2⟩] at ht
    obtain ⟨j, hj, he⟩ := ht
    have hs := (check_spec rs i j hj).1
    rw [he]
    have hone : ∀ r ∈ rs, ∃ m, one j runtime r = .ok m := by
      intro r hr
      obtain ⟨s1, s2, s3⟩ := hs r hr
      obtain ⟨-, a, b, c, d⟩ := h' r hr
      obtain ⟨t, a⟩ := Option.isSome_iff_exists.1 a
      obtain ⟨u, b⟩ := Option.isSome_iff_exists.1 b
      obtain ⟨v, c⟩ := Option.isSome_iff_exists.1 c
      obtain ⟨w, d⟩ := Option.isSome_iff_exists.1 d
      exact ⟨⟨r, u, v, w, t⟩, (one_ok_iff _ _ _ _).2 ⟨rfl, a, s1.trans b, s2.trans c, s3.trans d⟩⟩
    clear h' hn hw hs he hj
    induction rs with
    | nil => exact ⟨[], rfl⟩
    | cons r rs ih =>
      obtain ⟨m, hm⟩ := hone r (by simp)
      obtain ⟨out, ho⟩ := ih fun x hx => hone x (by simp [hx])
      exact ⟨m :: out, (mapM_ok _ _ _).2 (.cons hm ((mapM_ok _ _ _).1 ho))⟩

/-- C157: otherwise the program ends with a message, unless only a runtime is missing in the output. -/
theorem C157_ends (q : Request) (hq : q.Proper) (i : Info α β γ) (found : List (List Char)) (runtime : List (List Char × δ)) (r : List Char)
    (hr : q.Wanted found r) (h : r ∉ found ∨ given i.loops r = none ∨ given i.repetitions r = none ∨ given i.flops r = none) :
    measured q.arg i found runtime = .error "SystemExit" := by
  obtain ⟨rs, -, hw, ht⟩ := treated q hq i found runtime
  rw [if_neg] at ht
  · exact ht
  · rintro ⟨h1, h2⟩
    have hm := (hw r).2 hr
    obtain ⟨k1, k2, k3⟩ := h2 r hm
    rcases h with h | h | h | h
    · exact h (h1 r hm)
    · simp [h] at k1
    · simp [h] at k2
    · simp [h] at k3

/-- Two regions, one of them with an own loop. -/
def sampleInfo : Info Nat Nat Nat := ⟨[([], 100), (['a'], 7)], [([], 1)], [([], 2)]⟩

example : (Request.named [['a'], ['b'], ['a']]).Proper ∧
    ((measured (Request.named [['a'], ['b'], ['a']]).arg sampleInfo [[], ['a'], ['b'], ['c']] [(['a'], 3), (['b'], 4)]).map
      fun l => l.map fun m => (m.region, m.loops, m.flops, m.runtime)) = .ok [(['b'], 100, 2, 4), (['a'], 7, 2, 3)] := by
  refine ⟨⟨by decide, by decide, by decide⟩, by decide +kernel⟩

example : ((measured Request.all.arg sampleInfo [[], ['a'], ['b']] [(['a'], 3), (['b'], 4)]).map fun l => l.map fun m => (m.region, m.runtime)) =
    .ok [(['a'], 3), (['b'], 4)] := by decide +kernel

example : (measured (Request.named [['x']]).arg sampleInfo [[], ['a'], ['b']] [(['a'], 3)]).map (fun l => l.map (·.region)) = .error "SystemExit" := by
  decide +kernel

end Verif.Regions
