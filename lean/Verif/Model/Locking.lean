import Mathlib.Logic.Function.Basic

/-!
Model of the intermediate-file protocol of `kerncraft/kernel.py` on one file:
`_check_freshness` (799-808), `lock_intermediate` (810-850), `release_exclusive_lock` (852-863) and
their use by writers (e.g. 1376-1388, 1528-1576, 1634-1677) and readers.

Processes interleave at the level of single `flock` calls, freshness checks and file writes.
`flock` conversions (EX to SH) are not atomic: the old lock is dropped first (flock(2)).
Every `lock_intermediate` call counts as a process of its own (index type `ι`).

Simplifications: the modification times of machine file, kerncraft code and kernel file are one
fixed number `inp` (their maximum); time is a counter; content is abstracted to complete/incomplete.
-/

namespace Verif.Locking

/-- `flock` mode held by a process on the `.lock` file. -/
inductive Mode where
  | none
  | sh
  | ex
deriving DecidableEq, Repr

/-- Control state of one `lock_intermediate` call and its continuation. -/
inductive PC where
  /-- before line 826 -/
  | idle
  /-- blocked in `flock(LOCK_SH)`, line 829 -/
  | wantSH
  /-- holding SH, before the check in line 836 -/
  | gotSH
  /-- not fresh, before `flock(LOCK_UN)`, line 840 -/
  | stale
  /-- blocked in `flock(LOCK_EX)`, line 842 -/
  | wantEX
  /-- holding EX, before the check in line 844 -/
  | gotEX
  /-- fresh, before `flock(LOCK_SH)`, line 846 -/
  | conv
  /-- returned (LOCK_EX, ...): may write; nothing written yet -/
  | writing
  /-- started to write the file -/
  | partialWrite
  /-- file completely written, before `release_exclusive_lock` or `close` -/
  | wrote
  /-- old lock dropped, blocked in `flock(LOCK_SH)` (line 846 or 859) -/
  | wantSH2
  /-- returned (LOCK_SH, ...) or downgraded: may read -/
  | reading
  /-- lock file closed -/
  | done
  /-- process died -/
  | dead
deriving DecidableEq, Repr

/-- The intermediate file. -/
structure File where
  present : Bool
  mtime : Nat
  complete : Bool
deriving DecidableEq, Repr

/-- Global state. -/
structure State (ι : Type) where
  pc : ι → PC
  held : ι → Mode
  file : File
  now : Nat
  inp : Nat

/-- `kernel.py:799-808` `_check_freshness`: present and strictly newer than all inputs. -/
def fresh (f : File) (inp : Nat) : Bool := f.present && decide (inp < f.mtime)

/-- Atomic actions. -/
inductive Act where
  | openLock | grantSH | lockFails | check1 | unlock | grantEX | check2 | write | finish | drop
  | grantSH2 | close | tick | crash
deriving DecidableEq, Repr

variable {ι : Type} [DecidableEq ι]

/-- Move process `p` to `c` holding `m`. -/
def State.go (s : State ι) (p : ι) (c : PC) (m : Mode) : State ι :=
  { s with pc := Function.update s.pc p c, held := Function.update s.held p m }

/-- `flock(LOCK_SH)` by `p` can be granted: nobody else holds EX. -/
def canSH (s : State ι) (p : ι) : Prop := ∀ q, q ≠ p → s.held q ≠ .ex

/-- `flock(LOCK_EX)` by `p` can be granted: nobody else holds a lock. -/
def canEX (s : State ι) (p : ι) : Prop := ∀ q, q ≠ p → s.held q = .none

/-- One atomic step of process `p`. `works` tells whether `flock` works on this file system; if not,
line 830-834 assumes exclusive access. -/
inductive Step (works : Bool) (p : ι) : Act → State ι → State ι → Prop
  | openLock (s) : s.pc p = .idle → Step works p .openLock s (s.go p .wantSH .none)
  | grantSH (s) : works = true → s.pc p = .wantSH → canSH s p →
      Step works p .grantSH s (s.go p .gotSH .sh)
  | lockFails (s) : works = false → s.pc p = .wantSH → Step works p .lockFails s (s.go p .writing .none)
  | check1 (s) : s.pc p = .gotSH → Step works p .check1 s
      (s.go p (if fresh s.file s.inp then .reading else .stale) .sh)
  | unlock (s) : s.pc p = .stale → Step works p .unlock s (s.go p .wantEX .none)
  | grantEX (s) : s.pc p = .wantEX → canEX s p → Step works p .grantEX s (s.go p .gotEX .ex)
  | check2 (s) : s.pc p = .gotEX → Step works p .check2 s
      (s.go p (if fresh s.file s.inp then .conv else .writing) .ex)
  | write (s) : s.pc p = .writing ∨ s.pc p = .partialWrite → Step works p .write s
      { s.go p .partialWrite (s.held p) with file := ⟨true, s.now, false⟩ }
  | finish (s) : s.pc p = .writing ∨ s.pc p = .partialWrite → Step works p .finish s
      { s.go p .wrote (s.held p) with file := ⟨true, s.now, true⟩ }
  | drop (s) : s.pc p = .conv ∨ s.pc p = .wrote → Step works p .drop s (s.go p .wantSH2 .none)
  | grantSH2 (s) : s.pc p = .wantSH2 → canSH s p → Step works p .grantSH2 s (s.go p .reading .sh)
  | close (s) : s.pc p = .reading ∨ s.pc p = .wrote → Step works p .close s (s.go p .done .none)
  | tick (s) : Step works p .tick s { s with now := s.now + 1 }
  | crash (s) : Step works p .crash s (s.go p .dead .none)

/-- Runs: sequences of steps by arbitrary processes. The list records process and action. -/
inductive Run (works : Bool) : State ι → List (ι × Act) → State ι → Prop
  | nil (s) : Run works s [] s
  | snoc {s t u l p a} : Run works s l t → Step works p a t u → Run works s (l ++ [(p, a)]) u

/-- Initial states: no call has started; inputs were modified in the past; a file that looks fresh
was written completely. -/
structure Initial (s : State ι) : Prop where
  pc : ∀ p, s.pc p = .idle
  held : ∀ p, s.held p = .none
  past : s.inp < s.now
  file : fresh s.file s.inp = true → s.file.complete = true

end Verif.Locking
