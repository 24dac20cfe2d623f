import Verif.Lemmas.TileRun

/-!
C131: the constants of the search for a block size.
-/

namespace Verif.TileRun

open Verif.Symbols Verif.Options

/-- A size of an array depends on the symbol. -/
def InSizes (vars : List (String × Option (List Expr))) (s : String) : Prop := ∃ v dims, (v, some dims) ∈ vars ∧ ∃ e ∈ dims, Needs e s

/-- C131, partial: with arguments for the model and without scalars, a constant is varied exactly if it is the only one in the sizes of arrays that is not defined, and every
constant is defined at most once and with an integer, which is its value. Missing: scalars (`C131_negation_scalar`); the arguments of `cachetile` are never sufficient
(`C131_negation_arguments`). -/
theorem C131_choice_partial (options : List String) (vars : List (String × Option (List Expr))) (defines : List (String × String)) (dict : List (String × Int)) (s : String)
    (ho : ∀ o ∈ ["verbose", "cores", "cache_predictor"], o ∈ options) (hv : ∀ v ∈ vars, v.2 ≠ none) :
    prepare options vars defines = .ok (dict, s) ↔
      (defines.map (·.1)).Nodup ∧ List.Forall₂ (fun d e => e.1 = d.1 ∧ IntText.Means d.2 e.2) defines dict ∧
      ∀ t, t = s ↔ t ∉ defines.map (·.1) ∧ InSizes vars t := by
  have hi : ecmInit options = .ok () := by
    unfold ecmInit
    rw [if_neg]
    simp only [not_or, not_not]
    exact ⟨ho _ (by simp), ho _ (by simp), ho _ (by simp)⟩
  have hd := fun dict => defineDict_iff defines [] dict
  have hnames : ∀ dict : List (String × Int), List.Forall₂ (fun (d : String × String) e => e.1 = d.1 ∧ IntText.Means d.2 e.2) defines dict →
      dict.map (·.1) = defines.map (·.1) := by
    intro dict h
    clear hd
    induction h with
    | nil => rfl
    | cons h1 _ ih => simp [h1.1, ih]
  simp only [List.map_nil, List.not_mem_nil, not_false_eq_true, implies_true, true_and, List.nil_append, exists_eq_left'] at hd
  unfold prepare
  cases hc : defineDict defines [] with
  | error e =>
    simp only [reduceCtorEq, false_iff]
    rintro ⟨h1, h2, -⟩
    have := (hd dict).2 ⟨h1, h2⟩
    simp [hc] at this
  | ok dict' =>
    obtain ⟨h1, h2⟩ := (hd dict').1 hc
    have hch := fun t => choose_iff dict' vars t hv
    simp only [hi]
    constructor
    · cases hs : choose dict' vars with
      | error e => simp
      | ok t =>
        simp only [Except.ok.injEq, Prod.mk.injEq]
        rintro ⟨rfl, rfl⟩
        refine ⟨h1, h2, fun u => ?_⟩
        rw [(hch t).1 hs u, hnames dict' h2]
        rfl
    · rintro ⟨-, h3, h4⟩
      have he : dict = dict' := by
        have := (hd dict).2 ⟨h1, h3⟩
        rw [hc] at this
        injection this with this
        exact this.symm
      subst he
      rw [(hch s).2 fun t => by rw [h4 t, hnames dict h3]; rfl]

/-- `a[M][N]` and `b[N]` with `-D M 500`: the constant N. -/
def sampleVars : List (String × Option (List Expr)) := [("a", some [.sym "M", .sym "N"]), ("b", some [.sym "N"])]

example : ∀ v ∈ sampleVars, v.2 ≠ none := by decide

example : prepare ("cache_predictor" :: parserOptions) sampleVars [("M", "500")] = .ok ([("M", 500)], "N") := by decide +kernel

open Verif.Constants Verif.Layout in
/-- C131: each run of the model uses the defined constants and the length of the block, whatever was run before. -/
theorem C131_constants (before : List Call) (dict : List (String × Int)) (b : String) (length : Int) (uses : List Sym) (e : Sym) (σ : String → Option Int)
    (hn : (dict.map (·.1)).Nodup) (hb : b ∉ dict.map (·.1)) :
    (subsConsts (runCalls (before ++ simulateCalls dict b length ++ uses.map .subs)) e).1.eval σ =
      e.eval fun s => if s = b then some length else (dict.lookup s).or (σ s) := by
  have h := C12_clear_set_use_partial before (dict.map (fun d => (NameArg.str d.1, ValArg.int d.2)) ++ [(NameArg.symbol (posInt b), ValArg.int length)]) uses e
  have he : before ++ [Call.clear] ++ (dict.map (fun d => (NameArg.str d.1, ValArg.int d.2)) ++ [(NameArg.symbol (posInt b), ValArg.int length)]).map
      (fun c => Call.set c.1 c.2) ++ uses.map .subs = before ++ simulateCalls dict b length ++ uses.map .subs := by
    simp [simulateCalls]
  simp only at h
  rw [he] at h
  rw [h, substSym_eval]
  congr 1
  funext s
  rw [lookup_dict dict b length hn hb]
  split <;> simp

open Verif.Constants Verif.Layout in
example : (subsConsts (runCalls ([.set (.str "N") (.int 7), .subs (.var "N")] ++ simulateCalls [("M", 500)] "N" 100 ++ [])) (.add (.var "N") (.var "M"))).1.eval (fun _ => none) = some 600 := by
  decide +kernel

/-- C131 does not hold: a scalar, as in the description of the five-point stencil (`tests/test_files/2d-5pt.yml`), is a TypeError. -/
theorem C131_negation_scalar : prepare ("cache_predictor" :: parserOptions) (sampleVars ++ [("s", none)]) [("M", "500")] = .error "TypeError" := by decide +kernel

/-- C131 does not hold: whatever is given, the search never begins, because the model asks for an option that `cachetile` does not have. -/
theorem C131_negation_arguments (vars : List (String × Option (List Expr))) (defines : List (String × String)) : ∃ e, prepare parserOptions vars defines = .error e := by
  unfold prepare
  cases defineDict defines [] with
  | error e => exact ⟨e, rfl⟩
  | ok dict => exact ⟨"AttributeError", rfl⟩

end Verif.TileRun
