import Verif.Model.Paths
import Verif.Spec.Walk
import Mathlib.Data.List.TakeWhile

/-!
Lemmas on paths.
-/

namespace Verif.Paths

theorem follow_proper (d : List (List Char)) (n : List Char) (h : Proper n) : follow d n = d ++ [n] := by
  obtain ⟨h1, h2, h3, _⟩ := h
  simp [follow, h1, h2, h3]

theorem walk_slash (d : List (List Char)) (cur a b : List Char) :
    walk d cur (a ++ '/' :: b) = walk (walk d cur a) [] b := by
  induction a generalizing d cur with
  | nil => simp [walk]
  | cons c cs ih =>
    simp only [List.cons_append, walk]
    split
    · exact ih _ _
    · exact ih _ _

theorem walk_name (d : List (List Char)) (cur n : List Char) (h : '/' ∉ n) : walk d cur n = follow d (cur ++ n) := by
  induction n generalizing cur with
  | nil => simp [walk]
  | cons c cs ih =>
    simp only [List.mem_cons, not_or] at h
    have hc : ¬ c = '/' := fun e => h.1 e.symm
    simp only [walk, hc, if_false]
    rw [ih _ h.2]
    simp

theorem walk_trailing (d : List (List Char)) (cur a : List Char) : walk d cur (a ++ ['/']) = walk d cur a := by
  rw [walk_slash]
  rfl

theorem walk_slashes (d : List (List Char)) (cur a s : List Char) (hs : ∀ c ∈ s, c = '/') : walk d cur (a ++ s) = walk d cur a := by
  induction s generalizing a with
  | nil => simp
  | cons c cs ih =>
    have := hs c (by simp)
    subst this
    have e : a ++ '/' :: cs = (a ++ ['/']) ++ cs := by simp
    rw [e, ih _ fun c h => hs c (by simp [h]), walk_trailing]

theorem resolve_join (cwd : List (List Char)) (a b : List Char) (hb : b.head? ≠ some '/') :
    resolve cwd (join a b) = walk (resolve cwd a) [] b := by
  unfold join
  rw [if_neg hb]
  by_cases ha : a = []
  · subst ha
    simp only [true_or, if_true, List.nil_append]
    unfold resolve
    rw [if_neg hb, if_neg (by simp)]
    rfl
  · have key : ∀ x, walk x [] (if a = [] ∨ a.getLast? = some '/' then a ++ b else a ++ '/' :: b) = walk (walk x [] a) [] b := by
      intro x
      by_cases hl : a.getLast? = some '/'
      · rw [if_pos (Or.inr hl)]
        obtain ⟨a', rfl⟩ := List.getLast?_eq_some_iff.mp hl
        rw [walk_trailing, List.append_assoc, List.singleton_append, walk_slash]
      · rw [if_neg (by simp [ha, hl]), walk_slash]
    have hh : (if a = [] ∨ a.getLast? = some '/' then a ++ b else a ++ '/' :: b).head? = a.head? := by
      cases a with
      | nil => exact absurd rfl ha
      | cons c cs => split <;> rfl
    unfold resolve
    rw [hh]
    split
    · exact key _
    · exact key _

theorem resolve_join_proper (cwd : List (List Char)) (a b : List Char) (hb : Proper b) :
    resolve cwd (join a b) = resolve cwd a ++ [b] := by
  have h1 : b.head? ≠ some '/' := by
    intro h
    apply hb.2.2.2
    cases b with
    | nil => cases h
    | cons c cs =>
      simp only [List.head?_cons, Option.some.injEq] at h
      simp [h]
  rw [resolve_join cwd a b h1, walk_name _ _ _ hb.2.2.2, List.nil_append, follow_proper _ _ hb]

theorem head_base (p : List Char) : headPart p ++ basename p = p := by
  unfold headPart basename
  rw [← List.reverse_append, List.takeWhile_append_dropWhile, List.reverse_reverse]

theorem basename_slash (p : List Char) : '/' ∉ basename p := by
  unfold basename
  rw [List.mem_reverse]
  intro h
  have := List.mem_takeWhile_imp h
  simp at this

theorem headPart_cases (p : List Char) : headPart p = [] ∨ ∃ a, headPart p = a ++ ['/'] := by
  unfold headPart
  generalize p.reverse = q
  cases h : q.dropWhile (· != '/') with
  | nil => left; rfl
  | cons c cs =>
    right
    have : (c != '/') = false := by
      have := List.head?_dropWhile_not (p := (· != '/')) (l := q)
      rw [h] at this
      simpa using this
    simp only [bne_eq_false_iff_eq] at this
    subst this
    exact ⟨cs.reverse, by simp⟩

theorem rstrip_slashes (s : List Char) : ∃ t, s = rstripSlash s ++ t ∧ ∀ c ∈ t, c = '/' := by
  refine ⟨(s.reverse.takeWhile (· == '/')).reverse, ?_, ?_⟩
  · unfold rstripSlash
    rw [← List.reverse_append, List.takeWhile_append_dropWhile, List.reverse_reverse]
  · intro c hc
    rw [List.mem_reverse] at hc
    have := List.mem_takeWhile_imp hc
    simpa using this

theorem resolve_dirname (cwd : List (List Char)) (p : List Char) : resolve cwd (dirname p) = resolve cwd (headPart p) := by
  unfold dirname
  split
  · rename_i h
    obtain ⟨t, h1, h2⟩ := rstrip_slashes (headPart p)
    have hne : rstripSlash (headPart p) ≠ [] := by
      intro he
      rw [he, List.nil_append] at h1
      obtain ⟨_, h3⟩ := h
      rw [List.any_eq_true] at h3
      obtain ⟨c, hc, hc'⟩ := h3
      rw [h1] at hc
      rw [h2 c hc] at hc'
      simp at hc'
    have hh : (headPart p).head? = (rstripSlash (headPart p)).head? := by
      conv_lhs => rw [h1]
      cases hr : rstripSlash (headPart p) with
      | nil => exact absurd hr hne
      | cons c cs => rfl
    unfold resolve
    rw [hh]
    have e : ∀ x, walk x [] (headPart p) = walk x [] (rstripSlash (headPart p)) := by
      intro x
      conv_lhs => rw [h1]
      exact walk_slashes _ _ _ _ h2
    rw [e, e]
  · rfl

theorem resolve_split (cwd : List (List Char)) (p : List Char) :
    resolve cwd p = follow (resolve cwd (dirname p)) (basename p) := by
  rw [resolve_dirname]
  conv_lhs => rw [← head_base p]
  rcases headPart_cases p with h | ⟨a, h⟩
  · rw [h, List.nil_append]
    have hs := basename_slash p
    have hh : (basename p).head? ≠ some '/' := by
      intro he
      apply hs
      cases hb : basename p with
      | nil => rw [hb] at he; cases he
      | cons c cs =>
        rw [hb] at he
        simp only [List.head?_cons, Option.some.injEq] at he
        simp [he]
    unfold resolve
    rw [if_neg hh, if_neg (by simp), walk_name _ _ _ hs]
    rfl
  · rw [h]
    have hh : (a ++ ['/'] ++ basename p).head? = (a ++ ['/']).head? := by cases a <;> rfl
    unfold resolve
    rw [hh]
    have e : ∀ x, walk x [] (a ++ ['/'] ++ basename p) = follow (walk x [] (a ++ ['/'])) (basename p) := by
      intro x
      rw [walk_trailing, List.append_assoc, List.singleton_append, walk_slash, walk_name _ _ _ (basename_slash p)]
      rfl
    rw [e, e]
    split <;> rfl

/-! ### `abspath` and `relpath` -/

theorem splitSlash_ne_nil (s : List Char) : splitSlash s ≠ [] := by
  cases s with
  | nil => simp [splitSlash]
  | cons c cs =>
    simp only [splitSlash]
    split
    · simp
    · split <;> simp

theorem walk_split (d : List (List Char)) (cur s l : List Char) (ls : List (List Char)) (h : splitSlash s = l :: ls) :
    walk d cur s = ((cur ++ l) :: ls).foldl follow d := by
  induction s generalizing d cur l ls with
  | nil =>
    simp only [splitSlash, List.cons.injEq] at h
    obtain ⟨rfl, rfl⟩ := h
    simp [walk]
  | cons c cs ih =>
    simp only [splitSlash] at h
    simp only [walk]
    split at h
    · rename_i hc
      simp only [List.cons.injEq] at h
      obtain ⟨rfl, rfl⟩ := h
      rw [if_pos hc]
      cases hs : splitSlash cs with
      | nil => exact absurd hs (splitSlash_ne_nil _)
      | cons l' ls' =>
        rw [ih _ _ _ _ hs]
        simp
    · rename_i hc
      rw [if_neg hc]
      cases hs : splitSlash cs with
      | nil => exact absurd hs (splitSlash_ne_nil _)
      | cons l' ls' =>
        rw [hs] at h
        simp only [List.cons.injEq] at h
        obtain ⟨rfl, rfl⟩ := h
        rw [ih _ _ _ _ hs]
        simp

theorem walk_eq_foldl (d : List (List Char)) (s : List Char) : walk d [] s = (splitSlash s).foldl follow d := by
  cases hs : splitSlash s with
  | nil => exact absurd hs (splitSlash_ne_nil _)
  | cons l ls => rw [walk_split d [] s l ls hs, List.nil_append]

theorem splitSlash_mem (s : List Char) : ∀ l ∈ splitSlash s, '/' ∉ l := by
  induction s with
  | nil => simp [splitSlash]
  | cons c cs ih =>
    intro l hl
    simp only [splitSlash] at hl
    split at hl
    · rcases List.mem_cons.mp hl with rfl | hl
      · simp
      · exact ih l hl
    · rename_i hc
      split at hl
      · rename_i l' ls' hs
        rcases List.mem_cons.mp hl with rfl | hl
        · have := ih l' (by rw [hs]; simp)
          simp only [List.mem_cons, not_or]
          exact ⟨fun e => hc e.symm, this⟩
        · exact ih l (by rw [hs]; simp [hl])
      · simp only [List.mem_singleton] at hl
        subst hl
        simpa using fun e => hc (Eq.symm e)

theorem foldl_follow_proper (cs : List (List Char)) (d : List (List Char)) (hs : ∀ c ∈ cs, '/' ∉ c)
    (hd : ∀ c ∈ d, Proper c) : cs.foldl normStep d = cs.foldl follow d ∧ ∀ c ∈ cs.foldl follow d, Proper c := by
  induction cs generalizing d with
  | nil => exact ⟨rfl, hd⟩
  | cons c cs ih =>
    have hlast : d.getLast? ≠ some ['.', '.'] := by
      intro h
      exact (hd _ (List.mem_of_getLast? h)).2.2.1 rfl
    have hstep : normStep d c = follow d c := by
      unfold normStep follow
      by_cases h1 : c = []
      · simp [h1]
      · by_cases h2 : c = ['.']
        · simp [h2]
        · by_cases h3 : c = ['.', '.'] <;> simp [h1, h2, h3, hlast]
    have hp : ∀ x ∈ follow d c, Proper x := by
      intro x hx
      unfold follow at hx
      split at hx
      · exact hd x hx
      · split at hx
        · exact hd x hx
        · split at hx
          · exact hd x ((List.dropLast_sublist d).subset hx)
          · rcases List.mem_append.mp hx with hx | hx
            · exact hd x hx
            · simp only [List.mem_singleton] at hx
              subst hx
              rename_i h1 h2 h3
              exact ⟨h1, h2, h3, hs _ (by simp)⟩
    simp only [List.foldl_cons]
    rw [hstep]
    exact ih _ (fun c h => hs c (by simp [h])) hp

/-- `abspath` is right. -/
theorem absComps_eq (cwd p : List Char) (hcwd : cwd.head? = some '/') :
    absComps cwd p = resolve (resolve [] cwd) p ∧ ∀ c ∈ absComps cwd p, Proper c := by
  unfold absComps
  obtain ⟨h1, h2⟩ := foldl_follow_proper (splitSlash (join cwd p)) [] (splitSlash_mem _) (by simp)
  rw [h1]
  refine ⟨?_, h2⟩
  rw [← walk_eq_foldl]
  by_cases hp : p.head? = some '/'
  · unfold join
    rw [if_pos hp]
    unfold resolve
    rw [if_pos hp]
  · have := resolve_join [] cwd p hp
    have hj : (join cwd p).head? = some '/' := by
      unfold join
      rw [if_neg hp]
      cases cwd with
      | nil => cases hcwd
      | cons c cs => split <;> simpa using hcwd
    have e : resolve [] (join cwd p) = walk [] [] (join cwd p) := by
      unfold resolve
      rw [if_pos hj]
    rw [← e, this]
    have e2 : resolve (resolve [] cwd) p = walk (resolve [] cwd) [] p := by
      rw [resolve, if_neg hp]
    rw [e2]

theorem splitSlash_append (a b : List Char) (h : '/' ∉ a) : splitSlash (a ++ '/' :: b) = a :: splitSlash b := by
  induction a with
  | nil => simp [splitSlash]
  | cons c cs ih =>
    simp only [List.mem_cons, not_or] at h
    have hc : ¬ c = '/' := fun e => h.1 e.symm
    simp [splitSlash, hc, ih h.2]

theorem splitSlash_name (a : List Char) (h : '/' ∉ a) : splitSlash a = [a] := by
  induction a with
  | nil => rfl
  | cons c cs ih =>
    simp only [List.mem_cons, not_or] at h
    have hc : ¬ c = '/' := fun e => h.1 e.symm
    simp [splitSlash, hc, ih h.2]

theorem splitSlash_join (l : List (List Char)) (hne : l ≠ []) (h : ∀ x ∈ l, '/' ∉ x) : splitSlash (joinWith ['/'] l) = l := by
  induction l with
  | nil => exact absurd rfl hne
  | cons x xs ih =>
    cases xs with
    | nil => exact splitSlash_name x (h x (by simp))
    | cons y ys =>
      have : joinWith ['/'] (x :: y :: ys) = x ++ '/' :: joinWith ['/'] (y :: ys) := rfl
      rw [this, splitSlash_append _ _ (h x (by simp)), ih (by simp) fun z hz => h z (by simp [hz])]

theorem common_take (a b : List (List Char)) : a.take (common a b) = b.take (common a b) ∧ common a b ≤ a.length := by
  induction a generalizing b with
  | nil => simp [common]
  | cons x xs ih =>
    cases b with
    | nil => simp [common]
    | cons y ys =>
      simp only [common]
      split
      · rename_i h
        obtain ⟨h1, h2⟩ := ih ys
        exact ⟨by simp [h, h1], by simpa using h2⟩
      · simp

theorem foldl_up (n : Nat) (d : List (List Char)) : (List.replicate n ['.', '.']).foldl follow d = d.take (d.length - n) := by
  induction n generalizing d with
  | zero => simp
  | succ n ih =>
    rw [List.replicate_succ, List.foldl_cons, ih]
    have : follow d ['.', '.'] = d.dropLast := by simp [follow]
    rw [this, List.dropLast_eq_take, List.take_take, List.length_take]
    congr 1
    omega

theorem foldl_down (l d : List (List Char)) (h : ∀ c ∈ l, Proper c) : l.foldl follow d = d ++ l := by
  induction l generalizing d with
  | nil => simp
  | cons x xs ih =>
    rw [List.foldl_cons, follow_proper _ _ (h x (by simp)), ih _ fun c hc => h c (by simp [hc])]
    simp

/-- `relpath` denotes the same file. -/
theorem resolve_relpath (cwd p : List Char) (hcwd : cwd.head? = some '/') :
    resolve (resolve [] cwd) (relpath cwd p) = resolve (resolve [] cwd) p := by
  obtain ⟨s1, _⟩ := absComps_eq cwd ['.'] hcwd
  obtain ⟨p1, p2⟩ := absComps_eq cwd p hcwd
  have hdot : resolve (resolve [] cwd) ['.'] = resolve [] cwd := by
    simp [resolve, walk, follow]
  rw [hdot] at s1
  simp only [relpath]
  rw [s1, ← p1]
  generalize hC : resolve [] cwd = C at *
  generalize hP : absComps cwd p = P at *
  obtain ⟨c1, c2⟩ := common_take C P
  have hfold : (List.replicate (C.length - common C P) ['.', '.'] ++ P.drop (common C P)).foldl follow C = P := by
    rw [List.foldl_append, foldl_up, foldl_down]
    · have : C.length - (C.length - common C P) = common C P := by omega
      rw [this, c1, List.take_append_drop]
    · intro c hc
      exact p2 c (List.mem_of_mem_drop hc)
  split
  · rename_i he
    rw [he] at hfold
    simp only [List.foldl_nil] at hfold
    rw [← hfold]
    simp [resolve, walk, follow]
  · rename_i hne
    have hmem : ∀ x ∈ List.replicate (C.length - common C P) ['.', '.'] ++ P.drop (common C P), '/' ∉ x := by
      intro x hx
      rcases List.mem_append.mp hx with hx | hx
      · rw [List.eq_of_mem_replicate hx]
        decide
      · exact (p2 x (List.mem_of_mem_drop hx)).2.2.2
    have hhead : (joinWith ['/'] (List.replicate (C.length - common C P) ['.', '.'] ++ P.drop (common C P))).head? ≠ some '/' := by
      have hnil : ∀ x ∈ List.replicate (C.length - common C P) ['.', '.'] ++ P.drop (common C P), x ≠ [] := by
        intro x hx
        rcases List.mem_append.mp hx with hx | hx
        · rw [List.eq_of_mem_replicate hx]
          decide
        · exact (p2 x (List.mem_of_mem_drop hx)).1
      generalize List.replicate (C.length - common C P) ['.', '.'] ++ P.drop (common C P) = r at *
      cases r with
      | nil => exact absurd rfl hne
      | cons x xs =>
        have hx1 := hmem x (by simp)
        have hx2 := hnil x (by simp)
        cases x with
        | nil => exact absurd rfl hx2
        | cons c cs =>
          have : ¬ c = '/' := fun e => hx1 (by simp [e])
          cases xs <;> simp [joinWith, this]
    conv_lhs => unfold resolve
    rw [if_neg hhead, walk_eq_foldl, splitSlash_join _ hne hmem, hfold]

theorem resolve_reducePath (cwd p : List Char) (hcwd : cwd.head? = some '/') :
    resolve (resolve [] cwd) (reducePath cwd p) = resolve (resolve [] cwd) p := by
  simp only [reducePath]
  split
  · exact resolve_relpath cwd p hcwd
  · rfl

end Verif.Paths
