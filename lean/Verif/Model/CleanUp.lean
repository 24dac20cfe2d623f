import Mathlib.Logic.Function.Basic

/-!
Model of the removal of intermediate files at the end of a run with `--clean-intermediates`
(`kernel.py:778-780`: `atexit.register(shutil.rmtree, ...)`), beside `lock_intermediate` (810-850) in other runs.

The directory that is removed contains the lock files. A lock belongs to the file that was opened (here a number), not to
its name: after the removal, `open(lock_filename, 'w+')` makes a new file, and its locks do not conflict with those on the old one.

Simplifications: one intermediate file; files of text that the run depends on do not change, so that a file is fresh if it
is present; writing into a directory that has been removed is not modelled as an error.
-/

namespace Verif.CleanUp

inductive Mode where
  | none | sh | ex
deriving DecidableEq

/-- Control state of a run, see the model of one file (`Model/Locking`). -/
inductive PC where
  | idle | wantSH | gotSH | stale | wantEX | gotEX | conv | writing | partialWrite | wrote | wantSH2 | reading | done | gone
deriving DecidableEq

/-- The intermediate file. -/
structure File where
  present : Bool
  complete : Bool
deriving DecidableEq

structure State (ι : Type) where
  pc : ι → PC
  held : ι → Mode
  /-- the opened lock file -/
  lockFile : ι → Nat
  /-- the lock file that has the name at present -/
  name : Option Nat
  /-- number of the next new lock file -/
  next : Nat
  file : File

variable {ι : Type} [DecidableEq ι]

def State.go (s : State ι) (p : ι) (c : PC) (m : Mode) : State ι :=
  { s with pc := Function.update s.pc p c, held := Function.update s.held p m }

/-- `flock(LOCK_SH)` can be granted. -/
def canSH (s : State ι) (p : ι) : Prop := ∀ q, q ≠ p → s.lockFile q = s.lockFile p → s.held q ≠ .ex

/-- `flock(LOCK_EX)` can be granted. -/
def canEX (s : State ι) (p : ι) : Prop := ∀ q, q ≠ p → s.lockFile q = s.lockFile p → s.held q = .none

/-- One step of process `p`. -/
inductive Step (p : ι) : State ι → State ι → Prop
  /-- line 826, the lock file exists -/
  | openOld (s i) : s.pc p = .idle → s.name = some i → Step p s { s.go p .wantSH .none with lockFile := Function.update s.lockFile p i }
  /-- line 826, the lock file is made -/
  | openNew (s) : s.pc p = .idle → s.name = none →
      Step p s { s.go p .wantSH .none with lockFile := Function.update s.lockFile p s.next, name := some s.next, next := s.next + 1 }
  | grantSH (s) : s.pc p = .wantSH → canSH s p → Step p s (s.go p .gotSH .sh)
  | check1 (s) : s.pc p = .gotSH → Step p s (s.go p (if s.file.present then .reading else .stale) .sh)
  | unlock (s) : s.pc p = .stale → Step p s (s.go p .wantEX .none)
  | grantEX (s) : s.pc p = .wantEX → canEX s p → Step p s (s.go p .gotEX .ex)
  | check2 (s) : s.pc p = .gotEX → Step p s (s.go p (if s.file.present then .conv else .writing) .ex)
  | write (s) : s.pc p = .writing → Step p s { s.go p .partialWrite .ex with file := ⟨true, false⟩ }
  | finish (s) : s.pc p = .partialWrite → Step p s { s.go p .wrote .ex with file := ⟨true, true⟩ }
  | drop (s) : s.pc p = .conv ∨ s.pc p = .wrote → Step p s (s.go p .wantSH2 .none)
  | grantSH2 (s) : s.pc p = .wantSH2 → canSH s p → Step p s (s.go p .reading .sh)
  | close (s) : s.pc p = .reading → Step p s (s.go p .done .none)

/-- `kernel.py:780`: a run that has ended removes the directory of intermediate files. -/
def State.remove (s : State ι) (p : ι) : State ι := { s.go p .gone .none with name := none, file := ⟨false, false⟩ }

/-- A run is between opening and closing the lock file. -/
def State.active (s : State ι) (p : ι) : Prop := s.pc p ≠ .idle ∧ s.pc p ≠ .done ∧ s.pc p ≠ .gone

/-- Runs. With `quiet`, files are only removed while no run is active. -/
inductive Run (quiet : Prop) : State ι → State ι → Prop
  | nil (s) : Run quiet s s
  | step {s t u p} : Run quiet s t → Step p t u → Run quiet s u
  | remove {s t p} : Run quiet s t → t.pc p = .done → (quiet → ∀ q, ¬ t.active q) → Run quiet s (t.remove p)

/-- Before the first run: a file that is present is complete. -/
structure Initial (s : State ι) : Prop where
  pc : ∀ p, s.pc p = .idle
  held : ∀ p, s.held p = .none
  file : s.file.present = true → s.file.complete = true

end Verif.CleanUp
