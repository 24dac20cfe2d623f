import Verif.Model.TileRun
import Verif.Lemmas.Options
import Verif.Lemmas.Required
import Verif.Props.Constants

/-!
Lemmas for C131.
-/

namespace Verif.TileRun

open Verif.Symbols Verif.Required Verif.Options

theorem lookup_isSome {β : Type} (l : List (String × β)) (k : String) : (l.lookup k).isSome = true ↔ k ∈ l.map (·.1) := by
  induction l with
  | nil => simp
  | cons a l ih =>
    obtain ⟨k1, v⟩ := a
    rw [List.lookup_cons]
    by_cases h : k = k1
    · simp [h]
    · rw [beq_false_of_ne h]
      simp [ih, h]

theorem defineDict_iff (defs : List (String × String)) (acc dict : List (String × Int)) :
    defineDict defs acc = .ok dict ↔ (∀ d ∈ defs, d.1 ∉ acc.map (·.1)) ∧ (defs.map (·.1)).Nodup ∧
      ∃ new, dict = acc ++ new ∧ List.Forall₂ (fun d e => e.1 = d.1 ∧ IntText.Means d.2 e.2) defs new := by
  induction defs generalizing acc with
  | nil =>
    simp only [defineDict, Except.ok.injEq, List.not_mem_nil, false_implies, implies_true, List.map_nil, List.nodup_nil, List.forall₂_nil_left_iff, true_and]
    exact ⟨fun h => ⟨[], by simp [h], rfl⟩, fun ⟨new, h, hn⟩ => by simp [h, hn]⟩
  | cons d defs ih =>
    obtain ⟨n, t⟩ := d
    unfold defineDict
    by_cases h : (acc.lookup n).isSome = true
    · rw [if_pos h]
      rw [lookup_isSome] at h
      simp only [reduceCtorEq, false_iff]
      rintro ⟨h1, -⟩
      exact h1 (n, t) (by simp) h
    · rw [if_neg h]
      rw [lookup_isSome] at h
      cases hv : pyInt t with
      | none =>
        simp only [reduceCtorEq, false_iff]
        rintro ⟨-, -, new, -, hf⟩
        cases hf with
        | cons h1 _ =>
          have := (pyInt_iff _ _).2 h1.2
          simp [hv] at this
      | some v =>
        simp only
        rw [ih]
        simp only [List.map_append, List.map_cons, List.map_nil, List.mem_append, List.mem_cons, List.not_mem_nil, or_false, List.nodup_cons, List.mem_map]
        constructor
        · rintro ⟨h1, h2, new, rfl, hf⟩
          refine ⟨?_, ⟨?_, h2⟩, (n, v) :: new, by simp, .cons ⟨rfl, (pyInt_iff _ _).1 hv⟩ hf⟩
          · rintro d (rfl | hd)
            · simpa using h
            · exact fun hc => h1 d hd (Or.inl hc)
          · rintro ⟨d, hd, he⟩
            exact h1 d hd (Or.inr he)
        · rintro ⟨h1, ⟨h2, h3⟩, new, rfl, hf⟩
          cases hf with
          | cons h4 h5 =>
            rename_i e new
            obtain ⟨e1, e2⟩ := e
            simp only at h4
            obtain ⟨rfl, h4⟩ := h4
            have := (pyInt_iff _ _).2 h4
            rw [hv] at this
            injection this with this
            subst this
            refine ⟨fun d hd => ?_, h3, new, by simp, h5⟩
            rintro (hc | rfl)
            · exact h1 d (Or.inr hd) hc
            · exact h2 ⟨d, hd, rfl⟩

theorem undefined_spec (dict : List (String × Int)) (vars : List (String × Option (List Expr))) (acc : List String) (hs : ∀ v ∈ vars, v.2 ≠ none) (hn : acc.Nodup) :
    ∃ l, undefined dict vars acc = .ok l ∧ l.Nodup ∧
      ∀ s, s ∈ l ↔ s ∈ acc ∨ (s ∉ dict.map (·.1) ∧ ∃ v dims, (v, some dims) ∈ vars ∧ ∃ e ∈ dims, Needs e s) := by
  induction vars generalizing acc with
  | nil => exact ⟨acc, rfl, hn, by simp⟩
  | cons a vars ih =>
    obtain ⟨v, o⟩ := a
    cases o with
    | none => exact absurd rfl (hs (v, none) (by simp))
    | some dims =>
      unfold undefined
      have hmem : ∀ s, s ∈ ((dims.flatMap free).filter fun s => (dict.lookup s).isNone && !acc.contains s).dedup ↔
          (∃ e ∈ dims, Needs e s) ∧ s ∉ dict.map (·.1) ∧ s ∉ acc := by
        intro s
        rw [List.mem_dedup, List.mem_filter, List.mem_flatMap, Bool.and_eq_true, Bool.not_eq_true', ← Bool.not_eq_true, List.contains_iff_mem, ← lookup_isSome,
          Bool.not_eq_true, Option.isSome_eq_false_iff]
        simp only [needs_iff]
      obtain ⟨l, h1, h2, h3⟩ := ih (acc ++ ((dims.flatMap free).filter fun s => (dict.lookup s).isNone && !acc.contains s).dedup)
        (fun x hx => hs x (by simp [hx])) (List.nodup_append.2 ⟨hn, List.nodup_dedup _, fun a ha b hb he => ((hmem b).1 hb).2.2 (he ▸ ha)⟩)
      refine ⟨l, h1, h2, fun s => ?_⟩
      rw [h3, List.mem_append, hmem]
      by_cases hacc : s ∈ acc
      · simp [hacc]
      · simp only [hacc, false_or, not_false_eq_true, and_true, List.mem_cons, Prod.mk.injEq, Option.some.injEq]
        constructor
        · rintro (⟨⟨e, he, hne⟩, hd⟩ | ⟨hd, v', dims', hv, h⟩)
          · exact ⟨hd, v, dims, Or.inl ⟨rfl, rfl⟩, e, he, hne⟩
          · exact ⟨hd, v', dims', Or.inr hv, h⟩
        · rintro ⟨hd, v', dims', ⟨rfl, rfl⟩ | hv, h⟩
          · exact Or.inl ⟨h, hd⟩
          · exact Or.inr ⟨hd, v', dims', hv, h⟩

theorem choose_iff (dict : List (String × Int)) (vars : List (String × Option (List Expr))) (s : String) (hs : ∀ v ∈ vars, v.2 ≠ none) :
    choose dict vars = .ok s ↔ ∀ t, t = s ↔ t ∉ dict.map (·.1) ∧ ∃ v dims, (v, some dims) ∈ vars ∧ ∃ e ∈ dims, Needs e t := by
  obtain ⟨l, h1, h2, h3⟩ := undefined_spec dict vars [] hs List.nodup_nil
  simp only [List.not_mem_nil, false_or] at h3
  simp only [← h3]
  unfold choose
  rw [h1]
  rcases l with _ | ⟨a, _ | ⟨b, l⟩⟩
  · simp only [reduceCtorEq, List.not_mem_nil, iff_false, false_iff, not_forall, not_not]
    exact ⟨s, rfl⟩
  · simp only [Except.ok.injEq, List.mem_singleton]
    exact ⟨fun h t => by rw [h], fun h => ((h a).2 rfl)⟩
  · simp only [reduceCtorEq, false_iff]
    intro h
    have ha := (h a).2 (by simp)
    have hb := (h b).2 (by simp)
    rw [ha, hb] at h2
    simp at h2

open Verif.Constants Verif.Layout in
theorem substSym_eval (t : Table) (e : Sym) (σ : String → Option Int) : (substSym t e).eval σ = e.eval fun s => (t.lookup (posInt s)).or (σ s) := by
  induction e with
  | num n => rfl
  | var s =>
    simp only [substSym, Sym.eval]
    cases t.lookup (posInt s) <;> rfl
  | add a b iha ihb => simp only [substSym, Sym.eval, iha, ihb]
  | sub a b iha ihb => simp only [substSym, Sym.eval, iha, ihb]
  | mul a b iha ihb => simp only [substSym, Sym.eval, iha, ihb]

open Verif.Constants in
theorem lookup_dict (dict : List (String × Int)) (b : String) (n : Int) (hn : (dict.map (·.1)).Nodup) (hb : b ∉ dict.map (·.1)) (s : String) :
    (setMany [] (dict.map (fun d => (NameArg.str d.1, ValArg.int d.2)) ++ [(NameArg.symbol (posInt b), ValArg.int n)])).lookup (posInt s) =
      if s = b then some n else dict.lookup s := by
  rw [C13_last_write_wins]
  induction dict with
  | nil =>
    simp only [List.map_nil, List.nil_append, lastWrite_cons]
    by_cases h : s = b
    · simp [lastWrite, written, h, posInt]
    · simp [lastWrite, written, h, posInt]
  | cons d dict ih =>
    simp only [List.map_cons, List.nodup_cons, List.mem_cons, not_or] at hn hb
    rw [List.map_cons, List.cons_append, lastWrite_cons, ih hn.2 hb.2, List.lookup_cons]
    by_cases h : s = b
    · simp [h]
    · simp only [if_neg h, written]
      by_cases hd : s = d.1
      · have : dict.lookup s = none := by
          rw [← Option.not_isSome_iff_eq_none, lookup_isSome, hd]
          exact hn.1
        rw [this]
        simp [hd, posInt]
      · rw [beq_false_of_ne hd]
        simp [hd, posInt]

end Verif.TileRun
