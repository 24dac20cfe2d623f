import Verif.Lemmas.Paths

/-!
C51 and C68: intermediate directories, shortened paths.
-/

namespace Verif.Paths

/-- Name of the directory of a kernel file. -/
def dirName (file : List Char) : List Char := '.' :: (basename file ++ "_kerncraft".toList)

theorem dirName_proper (file : List Char) : Proper (dirName file) := by
  refine ⟨by simp [dirName], ?_, ?_, ?_⟩
  · intro h
    have := congrArg List.length h
    simp [dirName] at this
  · intro h
    have := congrArg List.length h
    simp [dirName] at this
  · unfold dirName
    intro h
    simp only [List.mem_cons, List.mem_append] at h
    rcases h with h | h | h
    · revert h; decide
    · exact basename_slash file h
    · revert h; decide

theorem resolve_kernelDir (cwd : List (List Char)) (file : List Char) :
    resolve cwd (kernelDir file) = resolve cwd (dirname file) ++ [dirName file] :=
  resolve_join_proper cwd _ _ (dirName_proper file)

/-- C51: two kernel files use the same directory if and only if they are the same file, in any working directories. -/
theorem C51_kernels (cwd cwd' : List (List Char)) (f g : List Char) (hf : Proper (basename f)) (hg : Proper (basename g)) :
    resolve cwd (kernelDir f) = resolve cwd' (kernelDir g) ↔ resolve cwd f = resolve cwd' g := by
  rw [resolve_kernelDir, resolve_kernelDir, resolve_split cwd f, resolve_split cwd' g, follow_proper _ _ hf, follow_proper _ _ hg,
    List.append_singleton_inj, List.append_singleton_inj]
  unfold dirName
  simp

/-- `kernels/2d.c` in `/home/u` and `../u//kernels/./2d.c` in `/home/v`. -/
example : Proper (basename "kernels/2d.c".toList) ∧ Proper (basename "../u//kernels/./2d.c".toList) ∧
    resolve ["home".toList, "u".toList] (kernelDir "kernels/2d.c".toList) =
      ["home".toList, "u".toList, "kernels".toList, ".2d.c_kerncraft".toList] ∧
    resolve ["home".toList, "v".toList] (kernelDir "../u//kernels/./2d.c".toList) =
      ["home".toList, "u".toList, "kernels".toList, ".2d.c_kerncraft".toList] := by
  refine ⟨?_, ?_, ?_, ?_⟩
  · unfold Proper; decide +kernel
  · unfold Proper; decide +kernel
  · decide +kernel
  · decide +kernel

/-- Names that a setup adds. -/
def setupNames (s : Option Setup) : List (List Char) :=
  match s with
  | some s => [s.identifier, s.compiler, argsText s.args]
  | none => []

/-- A dependency without slashes. -/
def bare (d : List Char) : List Char := d.filter (· != '/')

theorem resolve_setup (cwd : List (List Char)) (a : List Char) (hne : a ≠ []) (s : Option Setup) (hs : ∀ n ∈ setupNames s, Proper n) :
    resolve cwd (a ++ setupPart s) = resolve cwd a ++ setupNames s := by
  cases s with
  | none => simp [setupNames, setupPart]
  | some s =>
    simp only [setupNames, List.mem_cons, List.not_mem_nil, or_false, forall_eq_or_imp, forall_eq] at hs
    obtain ⟨h1, h2, h3⟩ := hs
    have hh : (a ++ setupText s).head? = a.head? := by
      cases a with
      | nil => exact absurd rfl hne
      | cons c cs => rfl
    have key : ∀ x, walk x [] (a ++ setupText s) = walk x [] a ++ setupNames (some s) := by
      intro x
      unfold setupText
      rw [walk_slash, walk_slash, walk_name _ _ s.identifier h1.2.2.2, List.nil_append, follow_proper _ _ h1]
      rw [walk_slash, walk_name _ _ s.compiler h2.2.2.2, List.nil_append, follow_proper _ _ h2]
      rw [walk_trailing, walk_name _ _ (argsText s.args) h3.2.2.2, List.nil_append, follow_proper _ _ h3]
      simp [setupNames]
    simp only [setupPart]
    unfold resolve
    rw [hh, key, key]
    split <;> rfl

theorem join_ne_nil (a b : List Char) (h : b ≠ []) : join a b ≠ [] := by
  unfold join
  split
  · exact h
  · split <;> simp [h]

theorem resolve_deps (cwd : List (List Char)) (deps : List (List Char)) (a : List Char) (h : ∀ d ∈ deps, Proper (bare d)) :
    resolve cwd (deps.foldl (fun b d => join b (d.filter (· != '/'))) a) = resolve cwd a ++ deps.map bare := by
  induction deps generalizing a with
  | nil => simp
  | cons d ds ih =>
    rw [List.foldl_cons, ih _ fun x hx => h x (by simp [hx])]
    have := resolve_join_proper cwd a (bare d) (h d (by simp))
    unfold bare at this ⊢
    rw [this]
    simp

/-- Where a location is, for names that are proper. -/
theorem resolve_location (cwd file : List Char) (setup : Option Setup) (deps : List (List Char)) (name : List Char)
    (hcwd : cwd.head? = some '/') (hs : ∀ n ∈ setupNames setup, Proper n) (hd : ∀ d ∈ deps, Proper (bare d)) (hn : Proper name) :
    resolve (resolve [] cwd) (location cwd file setup deps name) =
      resolve (resolve [] cwd) (kernelDir file) ++ setupNames setup ++ deps.map bare ++ [name] := by
  unfold location
  rw [resolve_reducePath cwd _ hcwd, resolve_join_proper _ _ _ hn]
  unfold directory
  rw [resolve_deps _ _ _ hd, resolve_setup _ _ _ _ hs]
  exact join_ne_nil _ _ (by simp)

theorem joinWith_inj (sep : Char) (l l' : List (List Char)) (hne : l ≠ []) (hne' : l' ≠ []) (h : ∀ x ∈ l, sep ∉ x)
    (h' : ∀ x ∈ l', sep ∉ x) (he : joinWith [sep] l = joinWith [sep] l') : l = l' := by
  have split : ∀ (x y r r' : List Char), sep ∉ x → sep ∉ y → x ++ sep :: r = y ++ sep :: r' → x = y ∧ r = r' := by
    intro x
    induction x with
    | nil =>
      intro y r r' _ hy he
      cases y with
      | nil => simpa using he
      | cons c cs =>
        simp only [List.nil_append, List.cons_append, List.cons.injEq] at he
        exact absurd (by simp [he.1]) hy
    | cons c cs ih =>
      intro y r r' hx hy he
      cases y with
      | nil =>
        simp only [List.nil_append, List.cons_append, List.cons.injEq] at he
        exact absurd (by simp [he.1]) hx
      | cons d ds =>
        simp only [List.cons_append, List.cons.injEq] at he
        obtain ⟨g1, g2⟩ := ih ds r r' (fun h => hx (by simp [h])) (fun h => hy (by simp [h])) he.2
        exact ⟨by rw [he.1, g1], g2⟩
  induction l generalizing l' with
  | nil => exact absurd rfl hne
  | cons x xs ih =>
    cases l' with
    | nil => exact absurd rfl hne'
    | cons y ys =>
      cases xs with
      | nil =>
        cases ys with
        | nil => simpa [joinWith] using he
        | cons z zs =>
          simp only [joinWith] at he
          exact absurd (by rw [he]; simp) (h x (by simp))
      | cons w ws =>
        cases ys with
        | nil =>
          simp only [joinWith] at he
          exact absurd (by rw [← he]; simp) (h' y (by simp))
        | cons z zs =>
          simp only [joinWith, List.singleton_append] at he
          obtain ⟨g1, g2⟩ := split _ _ _ _ (h x (by simp)) (h' y (by simp)) he
          rw [g1, ih (z :: zs) (by simp) (by simp) (fun x hx => h x (by simp [hx])) (fun x hx => h' x (by simp [hx])) g2]

/-- C51, partial: files that depend on machine and compiler are kept apart. If two of them are at the same location,
kernel file, identifier of the machine, compiler, flags, dependencies and name agree. Missing (hypotheses): flags with
slashes or underscores and dependencies with slashes, see the negations; machines are identified by the name of their
file, without directory, see the negation. -/
theorem C51_setups_partial (cwd : List Char) (hcwd : cwd.head? = some '/') (f g : List Char) (s s' : Setup)
    (deps deps' : List (List Char)) (name name' : List Char)
    (hf : Proper (basename f)) (hg : Proper (basename g)) (hn : Proper name) (hn' : Proper name')
    (hs : ∀ n ∈ setupNames (some s), Proper n) (hs' : ∀ n ∈ setupNames (some s'), Proper n)
    (ha : s.args ≠ [] ∧ ∀ a ∈ s.args, '/' ∉ a ∧ '_' ∉ a) (ha' : s'.args ≠ [] ∧ ∀ a ∈ s'.args, '/' ∉ a ∧ '_' ∉ a)
    (hd : ∀ d ∈ deps, Proper d) (hd' : ∀ d ∈ deps', Proper d) (hlen : deps.length = deps'.length)
    (h : resolve (resolve [] cwd) (location cwd f (some s) deps name) =
      resolve (resolve [] cwd) (location cwd g (some s') deps' name')) :
    resolve (resolve [] cwd) f = resolve (resolve [] cwd) g ∧ s = s' ∧ deps = deps' ∧ name = name' := by
  have hbare : ∀ d : List Char, Proper d → bare d = d := by
    intro d hd
    unfold bare
    rw [List.filter_eq_self]
    intro c hc
    have : c ≠ '/' := fun e => hd.2.2.2 (e ▸ hc)
    simp [this]
  have hmap : ∀ ds : List (List Char), (∀ d ∈ ds, Proper d) → ds.map bare = ds := by
    intro ds hds
    conv_rhs => rw [← List.map_id ds]
    exact List.map_congr_left fun d hd => hbare d (hds d hd)
  rw [resolve_location cwd f _ _ _ hcwd hs (fun d h => (hbare d (hd d h)).symm ▸ hd d h) hn,
    resolve_location cwd g _ _ _ hcwd hs' (fun d h => (hbare d (hd' d h)).symm ▸ hd' d h) hn', hmap _ hd, hmap _ hd'] at h
  obtain ⟨h1, h2⟩ := List.append_inj' h rfl
  obtain ⟨h3, h4⟩ := List.append_inj' h1 hlen
  obtain ⟨h5, h6⟩ := List.append_inj' h3 rfl
  rw [C51_kernels _ _ f g hf hg] at h5
  simp only [setupNames, List.cons.injEq, and_true] at h6
  obtain ⟨e1, e2, e3⟩ := h6
  have hfilter : ∀ l : List (List Char), (∀ a ∈ l, '/' ∉ a ∧ '_' ∉ a) → '/' ∉ joinWith ['_'] l := by
    intro l hl
    induction l with
    | nil => simp [joinWith]
    | cons x xs ih =>
      cases xs with
      | nil => simpa [joinWith] using (hl x (by simp)).1
      | cons y ys =>
        have := ih fun a ha => hl a (by simp [ha])
        simp only [joinWith, List.mem_append, List.mem_singleton, not_or]
        exact ⟨(hl x (by simp)).1, by decide, this⟩
  have htext : ∀ l : List (List Char), (∀ a ∈ l, '/' ∉ a ∧ '_' ∉ a) → argsText l = joinWith ['_'] l := by
    intro l hl
    unfold argsText
    rw [List.filter_eq_self]
    intro c hc
    have : c ≠ '/' := fun e => hfilter l hl (e ▸ hc)
    simp [this]
  rw [htext _ ha.2, htext _ ha'.2] at e3
  have e4 := joinWith_inj '_' _ _ ha.1 ha'.1 (fun x hx => (ha.2 x hx).2) (fun x hx => (ha'.2 x hx).2) e3
  refine ⟨h5, ?_, h4, by simpa using h2⟩
  obtain ⟨i, c, a⟩ := s
  obtain ⟨i', c', a'⟩ := s'
  simp only at e1 e2 e4
  rw [e1, e2, e4]

/-- A location that meets the hypotheses. -/
example : location "/home/u".toList "kernels/2d.c".toList
      (some ⟨"SNB.yml".toList, "icc".toList, ["-O3".toList, "-xAVX".toList]⟩) ["OSACA".toList] "kernel.s".toList =
      "kernels/.2d.c_kerncraft/SNB.yml/icc/-O3_-xAVX/OSACA/kernel.s".toList ∧
    Proper "SNB.yml".toList ∧ Proper (argsText ["-O3".toList, "-xAVX".toList]) := by
  refine ⟨by decide +kernel, ?_, ?_⟩
  · unfold Proper; decide +kernel
  · unfold Proper; decide +kernel

/-- C51, negation: machine files with the same name in different directories share their results. -/
theorem C51_negation_machines : ∃ m m' : List Char, resolve [] m ≠ resolve [] m' ∧ ∀ cwd file compiler args deps name,
    location cwd file (some ⟨machineIdentifier m, compiler, args⟩) deps name =
      location cwd file (some ⟨machineIdentifier m', compiler, args⟩) deps name := by
  refine ⟨"/a/m.yml".toList, "/b/m.yml".toList, by decide +kernel, fun cwd file compiler args deps name => ?_⟩
  have h1 : machineIdentifier "/a/m.yml".toList = "m.yml".toList := by decide +kernel
  have h2 : machineIdentifier "/b/m.yml".toList = "m.yml".toList := by decide +kernel
  rw [h1, h2]

/-- C51, negation: results of `-I/a/bc` and `-I/ab/c`, and of `-DA_-DB` and `-DA -DB`, are not kept apart. -/
theorem C51_negation_flags : ∃ a1 a2 b1 b2 : List (List Char), a1 ≠ a2 ∧ b1 ≠ b2 ∧
    (∀ x ∈ a1 ++ a2, '_' ∉ x) ∧ (∀ x ∈ b1 ++ b2, '/' ∉ x) ∧ ∀ cwd file id compiler deps name,
    location cwd file (some ⟨id, compiler, a1⟩) deps name = location cwd file (some ⟨id, compiler, a2⟩) deps name ∧
    location cwd file (some ⟨id, compiler, b1⟩) deps name = location cwd file (some ⟨id, compiler, b2⟩) deps name := by
  refine ⟨["-I/a/bc".toList], ["-I/ab/c".toList], ["-DA_-DB".toList], ["-DA".toList, "-DB".toList],
    by decide +kernel, by decide +kernel, by decide +kernel, by decide +kernel, fun cwd file id compiler deps name => ?_⟩
  have h1 : argsText ["-I/a/bc".toList] = argsText ["-I/ab/c".toList] := by decide +kernel
  have h2 : argsText ["-DA_-DB".toList] = argsText ["-DA".toList, "-DB".toList] := by decide +kernel
  simp only [location, directory, setupPart, setupText, h1, h2, and_self]

/-! ### C68 -/

/-- C68: a shortened path denotes the same file. -/
theorem C68_same_file (cwd p : List Char) (hcwd : cwd.head? = some '/') :
    resolve (resolve [] cwd) (reducePath cwd p) = resolve (resolve [] cwd) p := resolve_reducePath cwd p hcwd

/-- C68: it is never longer. -/
theorem C68_not_longer (cwd p : List Char) : (reducePath cwd p).length ≤ p.length := by
  simp only [reducePath]
  split
  · omega
  · exact Nat.le_refl _

/-- Below, beside and far from the working directory. -/
example : reducePath "/home/u/k".toList "/home/u/k/../k/a.c".toList = "a.c".toList ∧
    reducePath "/home/u/k".toList "/home/u/m.yml".toList = "../m.yml".toList ∧
    reducePath "/home/u/k".toList "/tmp/a".toList = "/tmp/a".toList := by decide +kernel

end Verif.Paths
