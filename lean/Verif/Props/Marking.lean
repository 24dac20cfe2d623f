import Verif.Lemmas.Marking

/-!
C107, C108: the increment in marked assembly, selection of block and increment.
-/

namespace Verif.Marking

open Verif.Text Verif.Answers

variable {L M : Type}

/-! ### C107 -/

/-- C107: an increment that is not negative is read from marked assembly as it was written. The marker has the comment, and neither the
assembly nor the marker before the comment has the text `pointer_increment=`. -/
theorem C107_increment_partial [LT M] [DecidableLT M] (c : Code L M) (b : Block) (i : Incr) (input : List Char) (answers : List (List Char))
    (cache : Option (List Char)) (m : Marked L) (h : instrumentation c b i input answers cache = .ok m)
    (hm : ∀ s, ∃ s1 l s2 u v, (c.marker s).1 = s1 ++ l :: s2 ∧ c.text l = u ++ s ++ v ∧ ¬ "pointer_increment=".toList <:+: u ∧
      ∀ x ∈ s1, ¬ "pointer_increment=".toList <:+: c.text x)
    (hl : ∀ x ∈ c.lines, ¬ "pointer_increment=".toList <:+: c.text x) (hn : 0 ≤ m.increment) :
    reread m.text = some m.increment := by
  obtain ⟨label, rest, ls, -, -, -, h4, h5⟩ := instrumentation_ok c b i input answers cache m h
  obtain ⟨s1, l, s2, u, v, e1, e2, e3, e4⟩ := hm (comment m.increment (c.hash m.block))
  rw [e1] at h4
  obtain ⟨pre, post, hls, hpre⟩ : ∃ pre post, ls = pre ++ s1 ++ l :: post ∧ ∀ x ∈ pre, x ∈ c.lines := by
    unfold Asm.instrument at h4
    split at h4
    · split at h4
      · simp only [Except.ok.injEq] at h4
        rw [← h4]
        exact ⟨_, _, by simp only [List.append_assoc, List.cons_append]; rfl, fun x hx => List.mem_of_mem_take hx⟩
      · simp at h4
    · simp at h4
  have hshow : showInt m.increment = showNat m.increment.natAbs := by
    rw [showInt, if_neg (by omega)]
  have htext : m.text = ((pre ++ s1).flatMap fun l => c.text l ++ ['\n']) ++ u ++ (key ++ (showNat m.increment.natAbs ++
      (' ' :: (c.hash m.block ++ (v ++ ('\n' :: post.flatMap fun l => c.text l ++ ['\n'])))))) := by
    rw [h5, hls, List.flatMap_append, List.flatMap_cons, e2, comment_key, hshow]
    generalize key = k
    simp only [List.append_assoc, List.cons_append, List.nil_append]
  rw [reread, htext, search_at]
  · simp only
    rw [← hshow, parseInt_showInt]
  · refine key_lines c.text _ (fun x hx => ?_) u e3
    rcases List.mem_append.1 hx with hx | hx
    · exact hl x (hpre x hx)
    · exact e4 x hx
  · exact showNat_ne_nil _
  · exact showNat_digits _
  · simp [isDigit]

/-- Lines that are texts, marked as OSACA does for x86; one loop with two lines. -/
def sample (before : List Char) (detected : Option Int) : Code (List Char) Nat where
  lines := [before, ".L3:".toList, "jne .L3".toList, "ret".toList]
  text := id
  eqv := (· == ·)
  loops := [(".L3".toList, [".L3:".toList, "jne .L3".toList])]
  metric := List.length
  hash := fun _ => "abc".toList
  detect := fun _ _ => .ok detected
  marker := fun s => (["movl $111, %ebx # START".toList, "# ".toList ++ s, ".byte 100,103,144".toList],
    ["movl $222, %ebx # END".toList, ".byte 100,103,144".toList])

example : ∃ m, instrumentation (sample "main:".toList (some 64)) .auto .auto "f".toList [] none = .ok m ∧ m.increment = 64 ∧
    reread m.text = some 64 := by
  refine ⟨_, rfl, rfl, C107_increment_partial (sample "main:".toList (some 64)) .auto .auto "f".toList [] none _ rfl ?_ ?_ (by decide)⟩
  · intro s
    exact ⟨["movl $111, %ebx # START".toList], "# ".toList ++ s, [".byte 100,103,144".toList], "# ".toList, [], rfl, by simp [sample], by decide,
      by decide⟩
  · decide

/-- The increment of a loop that runs backwards is not read again: the program ends. -/
theorem C107_negation_negative : ∃ m, instrumentation (sample "main:".toList (some (-8))) .auto .auto "f".toList [] none = .ok m ∧
    m.increment = -8 ∧ reread m.text = none := ⟨_, rfl, rfl, by decide +kernel⟩

/-- A text of this form in the assembly is read instead of the comment. -/
theorem C107_negation_other : ∃ m, instrumentation (sample "# pointer_increment=4".toList (some 8)) .auto .auto "f".toList [] none = .ok m ∧
    m.increment = 8 ∧ reread m.text = some 4 := ⟨_, rfl, rfl, by decide +kernel⟩

theorem searchIncr_digit (s ds : List Char) (h : searchIncr s = some ds) : ∃ d es, ds = d :: es ∧ isDigit d = true := by
  induction s with
  | nil => simp [searchIncr] at h
  | cons ch cs ih =>
    rw [searchIncr] at h
    split at h
    · next d es _ heq =>
      simp only [Option.some.injEq] at h
      subst h
      exact ⟨d, es, rfl, List.mem_takeWhile_imp (l := (ch :: cs).drop "pointer_increment=".length) (by rw [heq]; simp)⟩
    · exact ih h

theorem reread_nonneg (s : List Char) (n : Int) (h : reread s = some n) : 0 ≤ n := by
  unfold reread at h
  split at h
  · next ds hs =>
    obtain ⟨d, es, rfl, hd⟩ := searchIncr_digit s ds hs
    unfold parseInt at h
    split at h
    · next heq =>
      simp only [List.cons.injEq] at heq
      rw [heq.1] at hd
      exact absurd hd (by decide)
    · obtain ⟨k, -, rfl⟩ := Option.map_eq_some_iff.1 h
      exact Int.natCast_nonneg k
    · obtain ⟨k, -, rfl⟩ := Option.map_eq_some_iff.1 h
      exact Int.natCast_nonneg k
  · simp at h

/-- C107: under the same conditions, exactly the increments that are not negative are read as they were written. -/
theorem C107_increment_iff [LT M] [DecidableLT M] (c : Code L M) (b : Block) (i : Incr) (input : List Char) (answers : List (List Char))
    (cache : Option (List Char)) (m : Marked L) (h : instrumentation c b i input answers cache = .ok m)
    (hm : ∀ s, ∃ s1 l s2 u v, (c.marker s).1 = s1 ++ l :: s2 ∧ c.text l = u ++ s ++ v ∧ ¬ "pointer_increment=".toList <:+: u ∧
      ∀ x ∈ s1, ¬ "pointer_increment=".toList <:+: c.text x)
    (hl : ∀ x ∈ c.lines, ¬ "pointer_increment=".toList <:+: c.text x) :
    reread m.text = some m.increment ↔ 0 ≤ m.increment :=
  ⟨reread_nonneg _ _, C107_increment_partial c b i input answers cache m h hm hl⟩

/-! ### C108 -/

/-- The first of the best blocks. -/
def Best [LT M] [LE M] (c : Code L M) (block : List L) : Prop :=
  ∃ pre label post, c.loops = pre ++ (label, block) :: post ∧ (∀ x ∈ pre, c.metric x.2 < c.metric block) ∧
    ∀ x ∈ post, c.metric x.2 ≤ c.metric block

theorem best_lookup [LinearOrder M] (c : Code L M) (hnd : (c.loops.map (·.1)).Nodup) (label : List Char)
    (h : Asm.selectBest c.metric c.loops = .ok label) (block : List L) (hl : c.loops.lookup label = some block) : Best c block := by
  obtain ⟨pre, b, post, e1, e2, e3⟩ := Asm.C37_first_best c.metric c.loops label h
  rw [lookup_nodup c.loops hnd label b (by simp [e1]), Option.some.injEq] at hl
  subst hl
  exact ⟨pre, label, post, e1, e2, e3⟩

/-- C108: the block is the best one with `auto`, and with `manual` the one that the user names (the best one if the user enters nothing),
after answers that are no labels. -/
theorem C108_block_partial [LinearOrder M] (c : Code L M) (b : Block) (i : Incr) (input : List Char) (answers : List (List Char))
    (cache : Option (List Char)) (m : Marked L) (hnd : (c.loops.map (·.1)).Nodup)
    (h : instrumentation c b i input answers cache = .ok m) :
    (b = .auto → Best c m.block) ∧
    (b = .manual → ∀ bad a rest, answers = bad ++ a :: rest → (∀ x ∈ bad, x ≠ [] ∧ ∀ blk, (x, blk) ∉ c.loops) →
      (a = [] → Best c m.block) ∧ ∀ blk, a ≠ [] → (a, blk) ∈ c.loops → m.block = blk) := by
  obtain ⟨label, rest, ls, h1, h2, -⟩ := instrumentation_ok c b i input answers cache m h
  constructor
  · rintro rfl
    simp only [selectBlock] at h1
    split at h1
    next l hl =>
      simp only [Except.ok.injEq, Prod.mk.injEq] at h1
      exact best_lookup c hnd l hl m.block (h1.1 ▸ h2)
    · simp at h1
  · rintro rfl bad a as rfl hbad
    simp only [selectBlock] at h1
    split at h1
    next l hl =>
      rw [askBlock_skip _ _ _ _ fun x hx => ⟨(hbad x hx).1, fun hmem => by
        obtain ⟨⟨y, blk⟩, hy, rfl⟩ := List.mem_map.1 hmem
        exact (hbad _ hx).2 blk hy⟩] at h1
      constructor
      · rintro rfl
        have hin : l ∈ c.loops.map (·.1) := by
          obtain ⟨pre, b, post, e1, -⟩ := Asm.C37_first_best c.metric c.loops l hl
          simp [e1]
        simp only [askBlock, if_true, List.contains_iff_mem, hin, Except.ok.injEq, Prod.mk.injEq] at h1
        exact best_lookup c hnd l hl m.block (h1.1 ▸ h2)
      · intro blk hne hmem
        have hin : a ∈ c.loops.map (·.1) := List.mem_map.2 ⟨_, hmem, rfl⟩
        simp only [askBlock, hne, if_false, List.contains_iff_mem, hin, if_true, Except.ok.injEq, Prod.mk.injEq] at h1
        rw [← h1.1, lookup_nodup c.loops hnd a blk hmem, Option.some.injEq] at h2
        exact h2.symm
    · simp at h1

/-- The answers that are left for the increment. -/
def After (c : Code L M) (b : Block) (answers rest : List (List Char)) : Prop :=
  match b with
  | .manual => ∃ bad a, answers = bad ++ a :: rest ∧ (∀ x ∈ bad, x ≠ [] ∧ ∀ blk, (x, blk) ∉ c.loops) ∧ (a = [] ∨ ∃ blk, (a, blk) ∈ c.loops)
  | _ => rest = answers

theorem after_select [LinearOrder M] (c : Code L M) (b : Block) (answers rest r : List (List Char)) (label : List Char)
    (ha : After c b answers rest) (h : selectBlock c b answers = .ok (label, r)) : r = rest := by
  cases b with
  | auto =>
    simp only [selectBlock] at h
    split at h <;> simp at h
    rw [← h.2, ha]
  | manual =>
    obtain ⟨bad, a, rfl, hbad, ha⟩ := ha
    simp only [selectBlock] at h
    split at h
    next l hl =>
      rw [askBlock_skip _ _ _ _ fun x hx => ⟨(hbad x hx).1, fun hmem => by
        obtain ⟨⟨y, blk⟩, hy, rfl⟩ := List.mem_map.1 hmem
        exact (hbad _ hx).2 blk hy⟩] at h
      by_cases h0 : a = []
      · have hmap : l ∈ c.loops.map (·.1) := by
          obtain ⟨pre, b, post, e1, -⟩ := Asm.C37_first_best c.metric c.loops l hl
          simp [e1]
        simp only [askBlock, h0, if_true, List.contains_iff_mem, hmap, Except.ok.injEq, Prod.mk.injEq] at h
        exact h.2.symm
      · obtain ⟨blk, hb⟩ := ha.resolve_left h0
        have hmap : a ∈ c.loops.map (·.1) := List.mem_map.2 ⟨(a, blk), hb, rfl⟩
        simp only [askBlock, h0, if_false, if_true, List.contains_iff_mem, hmap, Except.ok.injEq, Prod.mk.injEq] at h
        exact h.2.symm
    · simp at h
  | index n => simp [selectBlock] at h
  | other => simp [selectBlock] at h

/-- C108: the increment is the given number; with `auto` it is the detected one; otherwise it is the first number that the user enters,
if none was detected (`auto_with_manual_fallback`) or always (`manual`, where an answer without number is the detected one). What the user
entered is stored, unless it is zero. -/
theorem C108_increment [LinearOrder M] (c : Code L M) (b : Block) (i : Incr) (input : List Char) (answers rest : List (List Char))
    (cache : Option (List Char)) (m : Marked L) (h : instrumentation c b i input answers cache = .ok m) (ha : After c b answers rest) :
    (∀ n, i = .given n → m.increment = n ∧ m.cache = cache) ∧
    (i = .auto → c.detect m.block cache = .ok (some m.increment) ∧ m.cache = cache) ∧
    (i = .fallback → ∀ n, c.detect m.block cache = .ok (some n) → m.increment = n ∧ m.cache = cache) ∧
    (i = .manual → ∀ n a as, c.detect m.block cache = .ok (some n) → rest = a :: as → NoNumber a → m.increment = n) ∧
    (i = .fallback ∨ i = .manual → c.detect m.block cache = .ok none → ∀ bad a as n, rest = bad ++ a :: as → (∀ x ∈ bad, NoNumber x) →
      Number n a → m.increment = n) ∧
    (i = .manual → ∀ d n a as, c.detect m.block cache = .ok d → rest = a :: as → Number n a → m.increment = n) ∧
    ((i = .fallback ∧ c.detect m.block cache = .ok none) ∨ i = .manual →
      m.cache = if m.increment = 0 then cache else Asm.storeIncrement (c.hash m.block) m.increment (some input) cache) := by
  obtain ⟨label, r, ls, h1, -, h3, -⟩ := instrumentation_ok c b i input answers cache m h
  obtain rfl := after_select c b answers rest r label ha h1
  refine ⟨?_, ?_, ?_, ?_, ?_, ?_, ?_⟩
  · rintro n rfl
    simp only [selectIncr, Except.ok.injEq, Prod.mk.injEq] at h3
    exact ⟨h3.1.symm, h3.2.symm⟩
  · rintro rfl
    simp only [selectIncr] at h3
    split at h3 <;> simp at h3
    next n hd => exact ⟨by rw [hd, h3.1], h3.2.symm⟩
  · rintro rfl n hd
    simp only [selectIncr, hd, Except.ok.injEq, Prod.mk.injEq] at h3
    exact ⟨h3.1.symm, h3.2.symm⟩
  · rintro rfl n a as hd rfl hno
    simp only [selectIncr, hd, askIncr_default n a as hno, Except.ok.injEq, Prod.mk.injEq] at h3
    exact h3.1.symm
  · rintro (rfl | rfl) hd bad a as n rfl hbad hnum
    all_goals
      simp only [selectIncr, hd, askIncr_skip bad (a :: as) hbad, askIncr_number none n a as hnum, Except.ok.injEq, Prod.mk.injEq] at h3
      exact h3.1.symm
  · rintro rfl d n a as hd rfl hnum
    simp only [selectIncr, hd, askIncr_number d n a as hnum, Except.ok.injEq, Prod.mk.injEq] at h3
    exact h3.1.symm
  · rintro (⟨rfl, hd⟩ | rfl)
    · simp only [selectIncr, hd] at h3
      split at h3 <;> simp at h3
      rw [← h3.2, h3.1, stored]
    · simp only [selectIncr] at h3
      split at h3
      · simp at h3
      · split at h3 <;> simp at h3
        rw [← h3.2, h3.1, stored]

/-- C108: with `auto` and without a detected increment it is an error. -/
theorem C108_undetected [LinearOrder M] (c : Code L M) (b : Block) (input : List Char) (answers : List (List Char)) (cache : Option (List Char))
    (hd : ∀ blk, c.detect blk cache = .ok none) : ∃ e, instrumentation c b .auto input answers cache = .error e := by
  cases h : instrumentation c b .auto input answers cache with
  | error e => exact ⟨e, rfl⟩
  | ok m =>
    obtain ⟨label, r, ls, -, -, h3, -⟩ := instrumentation_ok c b .auto input answers cache m h
    simp [selectIncr, hd] at h3

/-- C108: nothing else can go wrong. -/
theorem C108_success [LinearOrder M] (c : Code L M) (b : Block) (i : Incr) (input : List Char) (answers rest : List (List Char))
    (cache : Option (List Char)) (hnd : (c.loops.map (·.1)).Nodup) (hne : c.loops ≠ []) (hb : b = .auto ∨ b = .manual)
    (hlines : ∀ l blk, (l, blk) ∈ c.loops → blk ≠ [] ∧ ∀ x ∈ blk, ∃ y ∈ c.lines, c.eqv x y = true) (ha : After c b answers rest)
    (hd : ∀ blk, ∃ d, c.detect blk cache = .ok d ∧ (i = .auto → d.isSome))
    (hi : i ≠ .other) (hans : ∃ bad a as n, rest = bad ++ a :: as ∧ (∀ x ∈ bad, NoNumber x) ∧ Number n a) :
    ∃ m, instrumentation c b i input answers cache = .ok m := by
  obtain ⟨l, hl⟩ := (Asm.C37_empty c.metric c.loops).2 hne
  have hin : ∃ blk, (l, blk) ∈ c.loops := by
    obtain ⟨pre, b, post, e1, -⟩ := Asm.C37_first_best c.metric c.loops l hl
    exact ⟨b, by simp [e1]⟩
  obtain ⟨label, blk, hs, hmem⟩ : ∃ label blk, selectBlock c b answers = .ok (label, rest) ∧ (label, blk) ∈ c.loops := by
    rcases hb with rfl | rfl
    · obtain ⟨blk, hb⟩ := hin
      exact ⟨l, blk, by rw [selectBlock, hl]; simp only [After] at ha; rw [ha], hb⟩
    · obtain ⟨bad, a, rfl, hbad, ha⟩ := ha
      have hskip := askBlock_skip (c.loops.map (·.1)) l bad (a :: rest) fun x hx => ⟨(hbad x hx).1, fun hmem => by
        obtain ⟨⟨y, blk⟩, hy, rfl⟩ := List.mem_map.1 hmem
        exact (hbad _ hx).2 blk hy⟩
      by_cases h0 : a = []
      · subst h0
        obtain ⟨blk, hb⟩ := hin
        refine ⟨l, blk, ?_, hb⟩
        have hmap : l ∈ c.loops.map (·.1) := List.mem_map.2 ⟨_, hb, rfl⟩
        simp only [selectBlock, hl, hskip, askBlock, if_true, List.contains_iff_mem, hmap]
      · obtain ⟨blk, hb⟩ := ha.resolve_left h0
        refine ⟨a, blk, ?_, hb⟩
        have hmap : a ∈ c.loops.map (·.1) := List.mem_map.2 ⟨_, hb, rfl⟩
        simp only [selectBlock, hl, hskip, askBlock, h0, if_false, List.contains_iff_mem, hmap, if_true]
  obtain ⟨hb0, hbl⟩ := hlines label blk hmem
  obtain ⟨d, hd, hauto⟩ := hd blk
  obtain ⟨bad, a, as, n, rfl, hbad, hnum⟩ := hans
  have hsel : ∃ n cache', selectIncr c blk i input (bad ++ a :: as) cache = .ok (n, cache') := by
    cases i with
    | given n => exact ⟨_, _, rfl⟩
    | auto =>
      obtain ⟨n, rfl⟩ := Option.isSome_iff_exists.1 (hauto rfl)
      exact ⟨n, cache, by simp [selectIncr, hd]⟩
    | fallback =>
      cases d with
      | none => exact ⟨n, _, by simp only [selectIncr, hd, askIncr_skip bad (a :: as) hbad, askIncr_number none n a as hnum]; rfl⟩
      | some n => exact ⟨n, cache, by simp [selectIncr, hd]⟩
    | manual =>
      cases d with
      | none => exact ⟨n, _, by simp only [selectIncr, hd, askIncr_skip bad (a :: as) hbad, askIncr_number none n a as hnum]; rfl⟩
      | some n' =>
        cases bad with
        | nil => exact ⟨n, _, by simp only [selectIncr, hd, List.nil_append, askIncr_number (some n') n a as hnum]; rfl⟩
        | cons x bad => exact ⟨n', _, by simp only [selectIncr, hd, List.cons_append, askIncr_default n' x _ (hbad x (by simp))]; rfl⟩
    | other => exact absurd rfl hi
  obtain ⟨n', cache', hsel⟩ := hsel
  obtain ⟨first, hfirst⟩ : ∃ f, blk.head? = some f := by
    cases blk with
    | nil => exact absurd rfl hb0
    | cons x blk => exact ⟨x, rfl⟩
  obtain ⟨last, hlast⟩ : ∃ f, blk.getLast? = some f := ⟨_, List.getLast?_eq_some_getLast hb0⟩
  have hidx : ∀ x ∈ blk, ∃ j, c.lines.findIdx? (c.eqv x) = some j := by
    intro x hx
    obtain ⟨y, hy, he⟩ := hbl x hx
    have : (c.lines.findIdx? (c.eqv x)).isSome := by
      rw [List.findIdx?_isSome, List.any_eq_true]
      exact ⟨y, hy, he⟩
    exact Option.isSome_iff_exists.1 this
  obtain ⟨j1, hj1⟩ := hidx first (List.mem_of_mem_head? hfirst)
  obtain ⟨j2, hj2⟩ := hidx last (List.mem_of_getLast? hlast)
  simp only [instrumentation, hs, lookup_nodup c.loops hnd label blk hmem, hfirst, hlast, hj1, hj2, hsel, Asm.instrument]
  exact ⟨_, rfl⟩

example : ∃ m, instrumentation (sample "main:".toList none) .manual .fallback "f".toList
      [".L4".toList, [], "eight".toList, " 8".toList] none = .ok m ∧ m.increment = 8 ∧ Best (sample "main:".toList none) m.block := by
  let c := sample "main:".toList none
  have hbad : ∀ x ∈ [".L4".toList], x ≠ [] ∧ ∀ blk, (x, blk) ∉ c.loops := by
    intro x hx
    rw [List.mem_singleton] at hx
    subst hx
    refine ⟨by decide, fun blk hb => ?_⟩
    simp only [c, sample, List.mem_singleton, Prod.mk.injEq] at hb
    exact absurd hb.1 (by decide)
  have ha : After c .manual [".L4".toList, [], "eight".toList, " 8".toList] ["eight".toList, " 8".toList] :=
    ⟨[".L4".toList], [], rfl, hbad, .inl rfl⟩
  have hno : ∀ x ∈ ["eight".toList], NoNumber x := by
    intro x hx
    rw [List.mem_singleton] at hx
    subst hx
    exact .inr ⟨'e', by decide, by decide, by decide, by decide⟩
  have hnum : Number 8 " 8".toList := ⟨[' '], [], by decide, by decide, by decide⟩
  obtain ⟨m, hm⟩ := C108_success c .manual .fallback "f".toList [".L4".toList, [], "eight".toList, " 8".toList] ["eight".toList, " 8".toList] none
    (by decide) (by decide) (.inr rfl) (by
      intro l blk hb
      simp only [c, sample, List.mem_singleton, Prod.mk.injEq] at hb
      obtain ⟨rfl, rfl⟩ := hb
      decide) ha (fun blk => ⟨none, rfl, by simp⟩) (by decide) ⟨["eight".toList], " 8".toList, [], 8, rfl, hno, hnum⟩
  have h1 := (C108_increment c .manual .fallback "f".toList _ _ none m hm ha).2.2.2.2.1 (.inl rfl) rfl _ _ [] 8 rfl hno hnum
  exact ⟨m, hm, h1, ((C108_block_partial c .manual .fallback "f".toList _ none m (by decide) hm).2 rfl [".L4".toList] [] _ rfl hbad).1 rfl⟩

/-- A block that is selected by its number is never found. -/
theorem C108_negation_number [LT M] [DecidableLT M] (c : Code L M) (n : Int) (i : Incr) (input : List Char) (answers : List (List Char))
    (cache : Option (List Char)) : instrumentation c (.index n) i input answers cache = .error "KeyError" := rfl

/-- If the increment is not detected and the file is to be marked in place, the assembly is lost. -/
theorem C108_negation_in_place : inPlace (sample "main:".toList none) .auto .auto "f".toList [] none = none ∧
    inPlace (sample "main:".toList none) (.index 0) .auto "f".toList [] none = some [] := by decide +kernel

end Verif.Marking
