import Verif.Lemmas.Dialect

/-!
C161: the syntax in which assembly is read.
-/

namespace Verif.Dialect

/-- The claim of C161: marked code is analysed by OSACA in the syntax of the code. -/
def C161Claim : Prop :=
  ∀ (L : Type) (v : List Nat) (lib : Library L) (choose : Dialect → List L → Except String (Nat × Nat)) (code marked : List L)
    (d : Dialect), both v = true → lib.Sound → mark v lib choose code = .ok marked → IsIn lib code d → osaca lib marked = .ok d

/-- Versions of three numbers know both syntaxes from 0.7 on. -/
theorem C161_version (a b c : Nat) : both [a, b, c] = true ↔ 1 ≤ a ∨ 7 ≤ b := by
  simp only [both, atLeast]
  split
  · split
    · subst_vars; split <;> simp; omega
    · simp; omega
  · simp; omega

/-- C161: code is marked in its own syntax, around the block that is chosen in this syntax. -/
theorem C161_markers {L : Type} (v : List Nat) (lib : Library L) (choose : Dialect → List L → Except String (Nat × Nat))
    (code marked : List L) (hv : both v = true) (h : mark v lib choose code = .ok marked) :
    ∃ d b e, IsIn lib code d ∧ choose d code = .ok (b, e) ∧
      marked = code.take b ++ lib.start d ++ (code.take e).drop b ++ lib.stop d ++ code.drop e :=
  mark_new v lib choose code marked hv h

/-- C161: code is marked exactly if it can be read in one of the syntaxes and a block is found. -/
theorem C161_marked_iff {L : Type} (v : List Nat) (lib : Library L) (choose : Dialect → List L → Except String (Nat × Nat))
    (code : List L) (hv : both v = true) :
    (∃ m, mark v lib choose code = .ok m) ↔ ∃ d b e, IsIn lib code d ∧ choose d code = .ok (b, e) := by
  constructor
  · rintro ⟨m, h⟩
    obtain ⟨d, b, e, h1, h2, -⟩ := mark_new v lib choose code m hv h
    exact ⟨d, b, e, h1, h2⟩
  · rintro ⟨d, b, e, h1, h2⟩
    unfold mark
    rw [(parseAsm_ok v lib code d hv).mpr h1]
    simp only [h2]
    rw [(detect_ok v lib code d hv).mpr h1]
    exact ⟨_, rfl⟩

/-- C161: the analysis for LLVM-MCA reads the marked code in the syntax of the code. -/
theorem C161_llvm_mca {L : Type} (v : List Nat) (lib : Library L) (choose : Dialect → List L → Except String (Nat × Nat))
    (code marked : List L) (d : Dialect) (hv : both v = true) (hl : lib.Sound) (h : mark v lib choose code = .ok marked)
    (hd : IsIn lib code d) : llvmMca v lib marked = .ok d := by
  obtain ⟨d', b, e, h1, -, h3⟩ := mark_new v lib choose code marked hv h
  have := isIn_unique lib code d' d h1 hd
  subst this
  rw [llvmMca, parseAsm_ok _ _ _ _ hv, h3]
  exact isIn_insert lib hl code d' b e h1

/-- C161, partial: the analysis by OSACA reads the marked code in the syntax of the code exactly if this is the one that OSACA reads if none is
named. Missing: the other syntax (`C161_negation`). -/
theorem C161_osaca_partial {L : Type} (v : List Nat) (lib : Library L) (choose : Dialect → List L → Except String (Nat × Nat))
    (code marked : List L) (d : Dialect) (hv : both v = true) (hl : lib.Sound) (h : mark v lib choose code = .ok marked)
    (hd : IsIn lib code d) : osaca lib marked = .ok d ↔ d = lib.default := by
  rw [osaca, parseFile_ok]
  refine ⟨fun hh => hh.1, fun hh => ⟨hh, ?_⟩⟩
  obtain ⟨d', b, e, h1, -, h3⟩ := mark_new v lib choose code marked hv h
  have := isIn_unique lib code d' d h1 hd
  subst this
  rw [← hh, h3]
  exact isIn_readable _ _ _ (isIn_insert lib hl code d' b e h1)

/-- C161: before version 0.7 everything is read in the same syntax. -/
theorem C161_before {L : Type} (v : List Nat) (lib : Library L) (choose : Dialect → List L → Except String (Nat × Nat))
    (code marked : List L) (hv : both v = false) (hl : lib.Sound) (h : mark v lib choose code = .ok marked) :
    Readable lib lib.default code ∧ osaca lib marked = .ok lib.default ∧ llvmMca v lib marked = .ok lib.default := by
  obtain ⟨d, b, e, s, h1, -, -, h4⟩ := mark_ok v lib choose code marked h
  have h5 := ((parseAsm_old _ _ _ _ hv).mp h1).2
  have h6 : Readable lib lib.default marked := by
    rw [h4, markerIn, if_neg (by simp [hv])]
    exact readable_insert lib _ code _ _ b e (hl _).1 (hl _).2 h5
  exact ⟨h5, by rw [osaca, parseFile_ok]; exact ⟨rfl, h6⟩, by rw [llvmMca, parseAsm_old _ _ _ _ hv]; exact ⟨rfl, h6⟩⟩

/-- A library that reads two lines, one in each syntax, and reads AT&T if no syntax is named. -/
def sample : Library String where
  reads d l := match d with
    | .intel => l == "add rax, 8" || l == "mov ebx, 111"
    | .att => l == "addq $8, %rax" || l == "movl $111, %ebx"
  start d := match d with
    | .intel => ["mov ebx, 111"]
    | .att => ["movl $111, %ebx"]
  stop _ := []
  default := .att

theorem sample_sound : sample.Sound := by
  intro d
  cases d <;> simp [Readable, sample]

/-- Code in the syntax of Intel cannot be read any more after it was marked. -/
theorem C161_negation : ¬ C161Claim := by
  intro h
  have := h String [0, 7, 0] sample (fun _ _ => .ok (0, 1)) ["add rax, 8"] ["mov ebx, 111", "add rax, 8"] .intel (by decide)
    sample_sound rfl (by simp [IsIn, Readable, sample])
  rw [osaca, parseFile_ok] at this
  exact absurd this.1 (by decide)

/-- The hypotheses can be met with the other syntax. -/
example : osaca sample ["movl $111, %ebx", "addq $8, %rax"] = .ok .att ∧
    llvmMca [0, 7, 0] sample ["movl $111, %ebx", "addq $8, %rax"] = .ok .att := by
  have hm : mark [0, 7, 0] sample (fun _ _ => .ok (0, 1)) ["addq $8, %rax"] = .ok ["movl $111, %ebx", "addq $8, %rax"] := rfl
  have hi : IsIn sample ["addq $8, %rax"] .att := by simp [IsIn, Readable, sample]
  exact ⟨(C161_osaca_partial _ _ _ _ _ _ (by decide) sample_sound hm hi).mpr rfl,
    C161_llvm_mca _ _ _ _ _ _ (by decide) sample_sound hm hi⟩

/-- The same with an earlier version. -/
example : osaca sample ["movl $111, %ebx", "addq $8, %rax"] = .ok .att :=
  (C161_before [0, 6, 1] sample (fun _ _ => .ok (0, 1)) ["addq $8, %rax"] _ (by decide) sample_sound rfl).2.1

/-- Code that mixes both is not marked. -/
example : ¬ ∃ m, mark [0, 7, 0] sample (fun _ _ => .ok (0, 1)) ["addq $8, %rax", "add rax, 8"] = .ok m := by
  rw [C161_marked_iff _ _ _ _ (by decide)]
  rintro ⟨d, -, -, h, -⟩
  cases d <;> simp [IsIn, Readable, sample] at h

/-- Version 0.10 is later than 0.7, version 0.6.1 is not, and 0.7 without a third number is taken for an earlier one. -/
example : both [0, 10, 0] = true ∧ both [0, 6, 1] = false ∧ both [0, 7] = false := by decide

end Verif.Dialect
