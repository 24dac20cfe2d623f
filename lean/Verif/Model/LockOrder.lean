import Mathlib.Logic.Function.Basic

/-!
Model of the locks on several intermediate files at once (`kernel.py`, `cacheprediction.py:263-277`, `515-537`,
`models/benchmark.py:356-437`). C14 to C16 are about one file; here, locks are nested.

A process is a program of lock operations, whose branches are taken depending on the freshness of files. Freshness is arbitrary
at every check, which covers all modification times. As in the model of one file, conversions of locks are not atomic.
`flock` locks belong to open files: a process that opens a lock file again is in conflict with its own locks.
-/

namespace Verif.LockOrder

/-- Lock operations of a process and what follows them. -/
inductive Prog (F : Type) where
  /-- `lock_intermediate` (`kernel.py:810-850`), with the program for `LOCK_SH` and the one for `LOCK_EX` -/
  | lock (f : F) (cached update : Prog F)
  /-- anything that takes time and no locks: generating, compiling, analysing -/
  | work (next : Prog F)
  /-- `release_exclusive_lock` (`kernel.py:852-863`) -/
  | downgrade (f : F) (next : Prog F)
  /-- `lock_fp.close()` -/
  | close (f : F) (next : Prog F)
  /-- end of the process, regular or by `sys.exit` -/
  | exit
  /-- the process has ended -/
  | done

/-- Mode of a lock. -/
inductive Mode where
  | none | sh | ex
deriving DecidableEq

/-- Progress within `lock_intermediate` or `release_exclusive_lock`. -/
inductive Stage where
  /-- before the operation; in `lock_intermediate` waiting for the first shared lock, line 829 -/
  | idle
  /-- shared lock, before the check in line 836 -/
  | gotSH
  /-- waiting for the exclusive lock, line 842 -/
  | wantEX
  /-- exclusive lock, before the check in line 844 -/
  | gotEX
  /-- exclusive lock dropped, waiting for the shared lock, lines 846 and 859 -/
  | wantSH
deriving DecidableEq

/-- A process: what it still has to do, locks of finished calls of `lock_intermediate`, progress of the present call. -/
structure Proc (F : Type) where
  prog : Prog F
  held : F → Mode
  stage : Stage

variable {F ι : Type} [DecidableEq F] [DecidableEq ι]

/-- Lock of the present call of `lock_intermediate` on `f`. -/
def Proc.current (P : Proc F) (f : F) : Mode :=
  match P.prog, P.stage with
  | .lock g _ _, .gotSH => if g = f then .sh else .none
  | .lock g _ _, .gotEX => if g = f then .ex else .none
  | _, _ => .none

/-- `flock(LOCK_SH)` of a call by `p` can be granted: no other open file has an exclusive lock. -/
def canSH (s : ι → Proc F) (p : ι) (f : F) : Prop := (∀ q, (s q).held f ≠ .ex) ∧ ∀ q, q ≠ p → (s q).current f ≠ .ex

/-- `flock(LOCK_EX)` of a call by `p` can be granted: no other open file has a lock. -/
def canEX (s : ι → Proc F) (p : ι) (f : F) : Prop := (∀ q, (s q).held f = .none) ∧ ∀ q, q ≠ p → (s q).current f = .none

/-- Change of a process. -/
inductive Move (sh ex : F → Prop) : Proc F → Proc F → Prop
  /-- line 829 -/
  | grantSH (f c u h) : sh f → Move sh ex ⟨.lock f c u, h, .idle⟩ ⟨.lock f c u, h, .gotSH⟩
  /-- lines 836-838 -/
  | fresh (f c u h) : Move sh ex ⟨.lock f c u, h, .gotSH⟩ ⟨c, Function.update h f .sh, .idle⟩
  /-- line 840 -/
  | stale (f c u h) : Move sh ex ⟨.lock f c u, h, .gotSH⟩ ⟨.lock f c u, h, .wantEX⟩
  /-- line 842 -/
  | grantEX (f c u h) : ex f → Move sh ex ⟨.lock f c u, h, .wantEX⟩ ⟨.lock f c u, h, .gotEX⟩
  /-- lines 844-846, the exclusive lock is dropped first -/
  | freshNow (f c u h) : Move sh ex ⟨.lock f c u, h, .gotEX⟩ ⟨.lock f c u, h, .wantSH⟩
  /-- line 850 -/
  | staleNow (f c u h) : Move sh ex ⟨.lock f c u, h, .gotEX⟩ ⟨u, Function.update h f .ex, .idle⟩
  /-- lines 846-848 -/
  | regrant (f c u h) : sh f → Move sh ex ⟨.lock f c u, h, .wantSH⟩ ⟨c, Function.update h f .sh, .idle⟩
  | work (n h) : Move sh ex ⟨.work n, h, .idle⟩ ⟨n, h, .idle⟩
  /-- line 859, the exclusive lock is dropped first -/
  | drop (f n h) : Move sh ex ⟨.downgrade f n, h, .idle⟩ ⟨.downgrade f n, Function.update h f .none, .wantSH⟩
  /-- line 859 -/
  | grantDown (f n h) : sh f → Move sh ex ⟨.downgrade f n, h, .wantSH⟩ ⟨n, Function.update h f .sh, .idle⟩
  | close (f n h) : Move sh ex ⟨.close f n, h, .idle⟩ ⟨n, Function.update h f .none, .idle⟩
  /-- the operating system closes all files -/
  | exit (h) : Move sh ex ⟨.exit, h, .idle⟩ ⟨.done, fun _ => .none, .idle⟩

/-- A step of one process; it may also die at any time. -/
inductive Step : (ι → Proc F) → (ι → Proc F) → Prop
  | move (s p Q) : Move (canSH s p) (canEX s p) (s p) Q → Step s (Function.update s p Q)
  | crash (s p) : (s p).prog ≠ .done → Step s (Function.update s p ⟨.done, fun _ => .none, .idle⟩)

/-- Runs with their number of steps. -/
inductive Run : Nat → (ι → Proc F) → (ι → Proc F) → Prop
  | nil (s) : Run 0 s s
  | snoc {n s t u} : Run n s t → Step t u → Run (n + 1) s u

/-! ### The programs -/

/-- Intermediate files; numbers stand for machines, compilers and other parts of paths. -/
inductive File where
  /-- `incore_analysis.pickle.lzma` -/
  | analysis (key : Nat)
  /-- `kernel-marked.s` -/
  | marked (key : Nat)
  /-- `kernel-marked.o` -/
  | markedObject (key : Nat)
  /-- `kernel.s` -/
  | assembly (key : Nat)
  /-- `kernel.o`, `kernel-omp.o` -/
  | object (omp : Bool) (key : Nat)
  /-- `kernel`, `kernel-omp` -/
  | executable (omp : Bool) (key : Nat)
  /-- `main.c` -/
  | main
  /-- `kernel.h` -/
  | header
  /-- `kernel.c`, `kernel-omp.c` -/
  | code (omp : Bool)
  /-- `LC_analysis.pickle.lzma`, `CSIM_analysis.pickle.lzma` -/
  | prediction (key : Nat)
deriving DecidableEq

/-- `kernel.py:1373-1390` `get_kernel_header`, `1407-1458` `get_kernel_code`, `1528-1576` `get_main_code`: files of text, whose lock is kept. -/
def source (f : File) (k : Prog File) : Prog File := .lock f (.work k) (.work (.downgrade f k))

/-- `kernel.py:1617-1679` `compile_kernel`; the lock of the result is kept. Failing compilations end the process. -/
def compile (out : File) (omp : Bool) (k : Prog File) : Prog File :=
  .lock out k (source .header (source (.code omp) (.work (.close (.code omp) (.close .header (.downgrade out k))))))

/-- `kernel.py:1581-1615` `assemble_to_object` -/
def assemble (out : File) (k : Prog File) : Prog File := .lock out k (.work (.downgrade out k))

/-- `kernel.py:1682-1752` `incore_analysis`; keys of the files, and whether the model is IACA. -/
def incore (ka km ko ks : Nat) (iaca : Bool) (k : Prog File) : Prog File :=
  let finish : Prog File := .work (.close (.analysis ka) (.close (.marked km) k))
  let analyse : Prog File := if iaca then assemble (.markedObject ko) (.work (.close (.markedObject ko) finish)) else .work finish
  .lock (.analysis ka) (.work (.close (.analysis ka) k))
    (.lock (.marked km) (.work analyse)
      (compile (.assembly ks) false (.work (.close (.assembly ks) (.downgrade (.marked km) analyse)))))

/-- `kernel.py:1754-1816` `build_executable` and `benchmark.py:356-437`, where the executable is used and its lock closed. -/
def benchmark (ke ko : Nat) (omp : Bool) (k : Prog File) : Prog File :=
  let use : Prog File := .work (.close (.executable omp ke) k)
  .lock (.executable omp ke) use
    (source .main (compile (.object omp ko) omp (.work (.close .main (.close (.object omp ko) (.downgrade (.executable omp ke) use))))))

/-- `cacheprediction.py:263-277` and `515-537`: predictors. -/
def predict (key : Nat) (k : Prog File) : Prog File :=
  .lock (.prediction key) (.work (.close (.prediction key) k)) (.work (.close (.prediction key) k))

/-- What a run of kerncraft does with intermediate files. -/
inductive Task where
  | incore (ka km ko ks : Nat) (iaca : Bool)
  | benchmark (ke ko : Nat) (omp : Bool)
  | predict (key : Nat)

/-- `kerncraft.py:375-403`: the models of all runs, one after the other. -/
def kerncraft : List Task → Prog File
  | [] => .exit
  | .incore ka km ko ks iaca :: ts => incore ka km ko ks iaca (kerncraft ts)
  | .benchmark ke ko omp :: ts => benchmark ke ko omp (kerncraft ts)
  | .predict key :: ts => predict key (kerncraft ts)

/-- A process before its first step. -/
def start (P : Prog F) : Proc F := ⟨P, fun _ => .none, .idle⟩

end Verif.LockOrder
