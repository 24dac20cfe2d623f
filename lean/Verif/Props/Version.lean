import Verif.Lemmas.Version

/-!
C116: versions of machine files.
-/

namespace Verif.Version

open Verif.Versions

/-- The first version whose files are supported, and the version of kerncraft. -/
def first : Versions.Version := ⟨0, 8, 3, some 0⟩
def last : Versions.Version := ⟨0, 8, 17, none⟩

/-- C116, partial: versions of three numbers are compared as their order says, unless only one of two versions with the same numbers is a
development version (`C116_negation_release`, `C116_negation_development`). -/
theorem C116_order_partial (v w : Versions.Version) (h : ¬ (v.major = w.major ∧ v.minor = w.minor ∧ v.patch = w.patch ∧ (v.dev = none ↔ w.dev ≠ none))) :
    (cmp (parse (text v)) (parse (text w)) = .ok .lt ↔ Before v w) ∧ (cmp (parse (text v)) (parse (text w)) = .ok .eq ↔ v = w) ∧
      (cmp (parse (text v)) (parse (text w)) = .ok .gt ↔ Before w v) := by
  rw [parse_text, parse_text]
  rcases cmp_comps v w h with ⟨h1, h2⟩ | ⟨rfl, h2⟩ | ⟨h1, h2⟩
  · rw [h2]
    refine ⟨by simp [h1], ?_, ?_⟩
    · simp only [Except.ok.injEq, reduceCtorEq, false_iff]
      rintro rfl
      exact before_irrefl v h1
    · simp [before_asymm v w h1]
  · rw [h2]
    simp [before_irrefl]
  · rw [h2]
    refine ⟨by simp [before_asymm w v h1], ?_, by simp [h1]⟩
    simp only [Except.ok.injEq, reduceCtorEq, false_iff]
    rintro rfl
    exact before_irrefl v h1

/-- C116: the exact condition. Two versions are compared rightly if and only if they are not a release and a development version of it. -/
theorem C116_order_iff (v w : Versions.Version) :
    ((cmp (parse (text v)) (parse (text w)) = .ok .lt ↔ Before v w) ∧ (cmp (parse (text v)) (parse (text w)) = .ok .eq ↔ v = w) ∧
      (cmp (parse (text v)) (parse (text w)) = .ok .gt ↔ Before w v)) ↔
    ¬ (v.major = w.major ∧ v.minor = w.minor ∧ v.patch = w.patch ∧ (v.dev = none ↔ w.dev ≠ none)) := by
  refine ⟨?_, C116_order_partial v w⟩
  rintro ⟨h1, -, h3⟩ ⟨ha, hb, hc, hd⟩
  rw [parse_text, parse_text] at h1 h3
  obtain ⟨a, b, c, d⟩ := v
  obtain ⟨a', b', c', d'⟩ := w
  simp only at ha hb hc hd
  subst ha hb hc
  simp only [comps, List.cons_append, List.nil_append] at h1 h3
  rw [cmp_num, if_pos rfl, cmp_num, if_pos rfl, cmp_num, if_pos rfl] at h1 h3
  cases d <;> cases d' <;> simp [cmp, Before, devBefore] at hd h1 h3

/-- C116, partial: a machine file is accepted if its version is between the first supported one and the one of kerncraft, and rejected otherwise.
Missing: the release 0.8.3 and development versions of 0.8.17 (see the negations), and texts of other forms (`C116_negation_text`). -/
theorem C116_accepted_partial (v : Versions.Version) (h1 : ¬ (v.major = 0 ∧ v.minor = 8 ∧ v.patch = 3 ∧ v.dev = none))
    (h2 : ¬ (v.major = 0 ∧ v.minor = 8 ∧ v.patch = 17 ∧ v.dev ≠ none)) :
    (¬ Before v first ∧ ¬ Before last v → check (text v) = .ok ⟨⟩) ∧ (Before v first ∨ Before last v → check (text v) = .error "ValueError") := by
  have e1 : minSupported = text first := by decide +kernel
  have e2 : current = text last := by decide +kernel
  have m1 : ¬ Mixed first v := by
    rintro ⟨a, b, c, d⟩
    exact h1 ⟨a.symm, b.symm, c.symm, by simpa [first] using d⟩
  have m2 : ¬ Mixed v last := by
    rintro ⟨a, b, c, d⟩
    exact h2 ⟨a, b, c, by simpa [last] using d⟩
  have msgs : ∃ ys, (changes.mapM fun c => cmp (parse c) (parse (text v))) = .ok ys := by
    refine mapM_ok _ _ fun c hc => ?_
    obtain ⟨vs, hvs⟩ := changes_form
    rw [hvs] at hc
    obtain ⟨w, -, rfl⟩ := List.mem_map.1 hc
    rw [parse_text, parse_text]
    exact cmp_total w v
  obtain ⟨ys, hys⟩ := msgs
  have hlow := cmp_comps first v m1
  have hhigh := cmp_comps v last m2
  rw [← parse_text, ← parse_text, ← e1] at hlow
  rw [← parse_text, ← parse_text, ← e2] at hhigh
  constructor
  · rintro ⟨n1, n2⟩
    have l : ∃ o, cmp (parse minSupported) (parse (text v)) = .ok o ∧ o ≠ .gt := by
      rcases hlow with h | h | h
      · exact ⟨_, h.2, by simp⟩
      · exact ⟨_, h.2, by simp⟩
      · exact absurd h.1 n1
    have u : ∃ o, cmp (parse (text v)) (parse current) = .ok o ∧ o ≠ .gt := by
      rcases hhigh with h | h | h
      · exact ⟨_, h.2, by simp⟩
      · exact ⟨_, h.2, by simp⟩
      · exact absurd h.1 n2
    obtain ⟨o, ho, ho'⟩ := l
    obtain ⟨p, hp, hp'⟩ := u
    simp [check, ho, hp, ho', hp', bind, Except.bind]
  · rintro (n | n)
    · have l : cmp (parse minSupported) (parse (text v)) = .ok .gt := by
        rcases hlow with h | h | h
        · exact absurd n (before_asymm _ _ h.1)
        · exact absurd n (h.1 ▸ before_irrefl _)
        · exact h.2
      simp [check, l, hys, bind, Except.bind]
    · have u : cmp (parse (text v)) (parse current) = .ok .gt := by
        rcases hhigh with h | h | h
        · exact absurd n (before_asymm _ _ h.1)
        · exact absurd n (h.1 ▸ before_irrefl _)
        · exact h.2
      obtain ⟨o, ho⟩ : ∃ o, cmp (parse minSupported) (parse (text v)) = .ok o := by rcases hlow with h | h | h <;> exact ⟨_, h.2⟩
      by_cases hg : o = .gt
      · simp [check, ho, hg, hys, bind, Except.bind]
      · simp [check, ho, hg, u, hys, bind, Except.bind]

/-- The version of the machine files that come with kerncraft. -/
example : text ⟨0, 8, 11, some 0⟩ = "0.8.11.dev0".toList ∧ ¬ Before ⟨0, 8, 11, some 0⟩ first ∧ ¬ Before last ⟨0, 8, 11, some 0⟩ ∧
    check "0.8.11.dev0".toList = .ok ⟨⟩ ∧ check "0.8.2".toList = .error "ValueError" ∧ check "0.10.0".toList = .error "ValueError" :=
  ⟨by decide +kernel, by simp [Before, first], by simp [Before, last], by decide +kernel, by decide +kernel, by decide +kernel⟩

/-- C116 does not hold: files of the release 0.8.3 are rejected, although the release is later than its development version. -/
theorem C116_negation_release : Before first ⟨0, 8, 3, none⟩ ∧ Before ⟨0, 8, 3, none⟩ last ∧ check (text ⟨0, 8, 3, none⟩) = .error "ValueError" :=
  ⟨by simp [Before, first, devBefore], by simp [Before, last], by decide +kernel⟩

/-- C116 does not hold: files of development versions of the current release are rejected. -/
theorem C116_negation_development (n : Nat) : Before ⟨0, 8, 17, some n⟩ last ∧ check (text ⟨0, 8, 17, some n⟩) = .error "ValueError" := by
  refine ⟨by simp [Before, last, devBefore], ?_⟩
  have e1 : minSupported = text first := by decide +kernel
  have e2 : current = text last := by decide +kernel
  obtain ⟨ys, hys⟩ : ∃ ys, (changes.mapM fun c => cmp (parse c) (parse (text ⟨0, 8, 17, some n⟩))) = .ok ys := by
    refine mapM_ok _ _ fun c hc => ?_
    obtain ⟨vs, hvs⟩ := changes_form
    rw [hvs] at hc
    obtain ⟨w, -, rfl⟩ := List.mem_map.1 hc
    rw [parse_text, parse_text]
    exact cmp_total w _
  have l : cmp (parse minSupported) (parse (text ⟨0, 8, 17, some n⟩)) = .ok .lt := by
    rw [e1, parse_text, parse_text]
    rfl
  have u : cmp (parse (text ⟨0, 8, 17, some n⟩)) (parse current) = .ok .gt := by
    rw [e2, parse_text, parse_text]
    rfl
  simp [check, l, u, hys, bind, Except.bind]

/-- C116 does not hold: other versions end in an error that is not meant for users, also when they are too old. -/
theorem C116_negation_text : check "0.8.3.1".toList = .error "TypeError" ∧ check "0.6.dev0".toList = .error "TypeError" ∧
    check "0.8.x".toList = .error "TypeError" := by decide +kernel

/-- C116: the exact condition. The check is right for a version if and only if that is neither the release 0.8.3 nor a development version of
0.8.17. -/
theorem C116_accepted_iff (v : Versions.Version) :
    (check (text v) = .ok ⟨⟩ ↔ ¬ Before v first ∧ ¬ Before last v) ↔
    ¬ (v.major = 0 ∧ v.minor = 8 ∧ v.patch = 3 ∧ v.dev = none) ∧ ¬ (v.major = 0 ∧ v.minor = 8 ∧ v.patch = 17 ∧ v.dev ≠ none) := by
  constructor
  · intro h
    obtain ⟨a, b, c, d⟩ := v
    simp only
    constructor
    · rintro ⟨rfl, rfl, rfl, rfl⟩
      obtain ⟨h1, h2, h3⟩ := C116_negation_release
      rw [h3] at h
      simpa using h.2 ⟨before_asymm _ _ h1, before_asymm _ _ h2⟩
    · rintro ⟨rfl, rfl, rfl, hd⟩
      obtain ⟨n, rfl⟩ := Option.ne_none_iff_exists'.1 hd
      obtain ⟨h2, h3⟩ := C116_negation_development n
      rw [h3] at h
      simpa using h.2 ⟨by simp [Before, first, devBefore], before_asymm _ _ h2⟩
  · rintro ⟨h1, h2⟩
    obtain ⟨ha, hb⟩ := C116_accepted_partial v h1 h2
    refine ⟨fun h => ⟨fun hc => ?_, fun hc => ?_⟩, ha⟩
    · rw [hb (Or.inl hc)] at h
      simp at h
    · rw [hb (Or.inr hc)] at h
      simp at h

example : (check (text ⟨0, 8, 5, some 2⟩) = .ok ⟨⟩ ↔ ¬ Before ⟨0, 8, 5, some 2⟩ first ∧ ¬ Before last ⟨0, 8, 5, some 2⟩) ∧
    ¬ (check (text ⟨0, 8, 17, some 2⟩) = .ok ⟨⟩ ↔ ¬ Before ⟨0, 8, 17, some 2⟩ first ∧ ¬ Before last ⟨0, 8, 17, some 2⟩) := by
  rw [C116_accepted_iff, C116_accepted_iff]
  decide

end Verif.Version
