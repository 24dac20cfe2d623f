/-!
Model of the on-disk caches used by `KernelCode.incore_analysis` (`kerncraft/kernel.py:1682-1752`).

The assembly instrumentation and the external analysers are uninterpreted functions (`mark`, `ana`);
the model records which cached file is used for which arguments. `none` of `mark` is a failing
instrumentation (e.g. no block found), after which nothing is cached.
-/

namespace Verif.IncoreCache

/-- `asm_block` and `pointer_increment` arguments, as they appear in the path. -/
structure Args where
  block : String
  increment : String
deriving DecidableEq, Repr

/-- Cached intermediate files of one kernel, machine and compiler: `incore_analysis.pickle.lzma` per
in-core model and parameter (1701-1702), `kernel-marked.s` per arguments (1710-1711). -/
structure Disk (M R : Type) where
  analysis : List (String × (R × Int))
  marked : List (Args × (M × Int))

/-- `kernel.py:1682-1752` `incore_analysis(asm_block, pointer_increment, model)`.
`mark args` yields marked assembly and detected pointer increment, `ana model asm` the analysis. -/
def incoreAnalysis {M R : Type} (mark : Args → Option (M × Int)) (ana : String → M → R)
    (d : Disk M R) (args : Args) (model : String) : Except String (R × Int) × Disk M R :=
  match d.analysis.lookup model with
  | some r => (.ok r, d)  -- 1704-1708: use cached analysis
  | none =>
    match d.marked.lookup args with
    | some (asm, inc) =>  -- 1713-1724: use cached marked assembly
      let r := (ana model asm, inc)
      (.ok r, { d with analysis := (model, r) :: d.analysis })
    | none =>  -- 1725-1735
      match mark args with
      | none => (.error "RuntimeError", d)
      | some (asm, inc) =>
        let r := (ana model asm, inc)
        (.ok r, { analysis := (model, r) :: d.analysis, marked := (args, (asm, inc)) :: d.marked })

/-- Events: an analysis call, or the cached files becoming outdated (`_check_freshness` false) because
kernel, machine file or kerncraft changed. -/
inductive Ev where
  | call (args : Args) (model : String)
  | touch
deriving DecidableEq, Repr

/-- Effect of one event on the cached files. -/
def step {M R : Type} (mark : Args → Option (M × Int)) (ana : String → M → R) (d : Disk M R) :
    Ev → Disk M R
  | .call a m => (incoreAnalysis mark ana d a m).2
  | .touch => ⟨[], []⟩

/-- Cached files after a history. -/
def runEvs {M R : Type} (mark : Args → Option (M × Int)) (ana : String → M → R) (h : List Ev) :
    Disk M R := h.foldl (step mark ana) ⟨[], []⟩

end Verif.IncoreCache
