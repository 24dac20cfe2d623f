import Verif.Model.Description
import Verif.Lemmas.Datatype

/-!
Lemmas for C130.
-/

namespace Verif.Description

open Verif.Datatype

theorem parse_preliminary (ns : Namespace) (loc : List String) (t : Tree Leaf) (h : ∀ s, t.Mem (.name s) → s ∈ loc ∨ ns s = none) :
    ∃ e, parseExpr ns loc t = .ok e ∧ ∀ s, t.Mem (.name s) → s ∈ freeNames e := by
  induction t with
  | leaf a =>
    cases a with
    | num n => exact ⟨_, rfl, fun s hs => by cases hs⟩
    | name s =>
      unfold parseExpr
      rcases h s .leaf with h | h
      · exact ⟨_, if_pos h, fun s' hs => by cases hs; simp [freeNames]⟩
      · by_cases hs : s ∈ loc
        · exact ⟨_, if_pos hs, fun s' hs => by cases hs; simp [freeNames]⟩
        · refine ⟨.leaf (.sym s false), by rw [if_neg hs, h], fun s' hs => by cases hs; simp [freeNames]⟩
  | neg t ih =>
    obtain ⟨e, h1, h2⟩ := ih fun s hs => h s (.neg hs)
    exact ⟨.neg e, by simp only [parseExpr, h1], fun s hs => by cases hs with | neg hs => exact h2 s hs⟩
  | bin op a b iha ihb =>
    obtain ⟨x, h1, h2⟩ := iha fun s hs => h s (.left hs)
    obtain ⟨y, h3, h4⟩ := ihb fun s hs => h s (.right hs)
    refine ⟨.bin op x y, by simp only [parseExpr, h1, h3], fun s hs => ?_⟩
    simp only [freeNames, List.mem_append]
    cases hs with
    | left hs => exact Or.inl (h2 s hs)
    | right hs => exact Or.inr (h4 s hs)

theorem parse_known (ns : Namespace) (loc : List String) (t : Tree Leaf) (h : ∀ s, t.Mem (.name s) → s ∈ loc) :
    parseExpr ns loc t = .ok (t.map Leaf.atom) := by
  induction t with
  | leaf a =>
    cases a with
    | num n => rfl
    | name s =>
      unfold parseExpr
      rw [if_pos (h s .leaf)]
      rfl
  | neg t ih => simp only [parseExpr, ih fun s hs => h s (.neg hs), Tree.map]
  | bin op a b iha ihb => simp only [parseExpr, iha fun s hs => h s (.left hs), ihb fun s hs => h s (.right hs), Tree.map]

theorem mem_letters (t : Tree Leaf) (s : String) (h : t.Mem (.name s)) (hs : s.toList.length = 1 ∧ s.toList.all Char.isAlpha) : s ∈ letters t := by
  induction t with
  | leaf a =>
    cases h
    simp only [letters, if_pos hs, List.mem_singleton]
  | neg t ih =>
    cases h with
    | neg h => exact ih h
  | bin op a b iha ihb =>
    simp only [letters, List.mem_append]
    cases h with
    | left h => exact Or.inl (iha h)
    | right h => exact Or.inr (ihb h)

theorem readText_plain (ns : Namespace) (t : Tree Leaf) (h : ∀ s, t.Mem (.name s) → Plain (fun s => ns s ≠ none) s) :
    readText ns t = .ok (t.map Leaf.atom) := by
  obtain ⟨e, h1, h2⟩ := parse_preliminary ns (letters t) t fun s hs => by
    rcases h s hs with h | h
    · exact Or.inl (mem_letters t s hs h)
    · exact Or.inr (not_not.1 h)
  unfold readText
  rw [h1]
  exact parse_known ns _ t fun s hs => List.mem_append.2 (Or.inr (h2 s hs))

mutual
theorem toSympy_iff (ns : Namespace) (y : Yaml) (v : Val) (h : ∀ s, y.Has s → Plain (fun s => ns s ≠ none) s) : toSympy ns y = .ok v ↔ Means y v := by
  match y with
  | .int z =>
    simp only [toSympy, Except.ok.injEq]
    exact ⟨fun h => h ▸ .int z, fun h => by cases h; rfl⟩
  | .null =>
    simp only [toSympy, Except.ok.injEq]
    exact ⟨fun h => h ▸ .null, fun h => by cases h; rfl⟩
  | .other =>
    simp only [toSympy, reduceCtorEq, false_iff]
    intro h
    cases h
  | .text t =>
    simp only [toSympy, readText_plain ns t fun s hs => h s (.text hs), Except.ok.injEq]
    exact ⟨fun h => h ▸ .text t, fun h => by cases h; rfl⟩
  | .list l =>
    have ih := fun l' => toSympyAll_iff ns l l' fun s hs => h s (.list hs)
    simp only [toSympy]
    cases hl : toSympyAll ns l with
    | error e =>
      simp only [reduceCtorEq, false_iff]
      intro hm
      cases hm with
      | list hm =>
        have := (ih _).2 hm
        rw [hl] at this
        cases this
    | ok l' =>
      simp only [Except.ok.injEq]
      constructor
      · rintro rfl
        exact .list ((ih _).1 hl)
      · intro hm
        cases hm with
        | list hm =>
          have := (ih _).2 hm
          rw [hl] at this
          injection this with this
          rw [this]

theorem toSympyAll_iff (ns : Namespace) (l : List Yaml) (l' : List Val) (h : ∀ s, HasAny s l → Plain (fun s => ns s ≠ none) s) :
    toSympyAll ns l = .ok l' ↔ MeansAll l l' := by
  match l with
  | [] =>
    simp only [toSympyAll, Except.ok.injEq]
    exact ⟨fun h => h ▸ .nil, fun h => by cases h; rfl⟩
  | y :: l =>
    have ih1 := fun v => toSympy_iff ns y v fun s hs => h s (.head hs)
    have ih2 := fun l' => toSympyAll_iff ns l l' fun s hs => h s (.tail hs)
    simp only [toSympyAll]
    constructor
    · intro hm
      cases hy : toSympy ns y with
      | error e => simp [hy] at hm
      | ok v =>
        cases hl : toSympyAll ns l with
        | error e => simp [hy, hl] at hm
        | ok m =>
          simp only [hy, hl, Except.ok.injEq] at hm
          subst hm
          exact .cons ((ih1 _).1 hy) ((ih2 _).1 hl)
    · intro hm
      cases hm with
      | cons h1 h2 => rw [(ih1 _).2 h1, (ih2 _).2 h2]
end

theorem mapM_iff {α β : Type} (f : α → Except String β) (l : List α) (r : List β) :
    l.mapM f = .ok r ↔ List.Forall₂ (fun a b => f a = .ok b) l r := by
  induction l generalizing r with
  | nil => simp [pure, Except.pure, eq_comm]
  | cons a l ih =>
    simp only [List.mapM_cons, bind, Except.bind, pure, Except.pure]
    cases ha : f a with
    | error e =>
      simp only [reduceCtorEq, false_iff]
      rintro h
      cases h with
      | cons h _ => simp [ha] at h
    | ok b =>
      simp only
      cases hl : l.mapM f with
      | error e =>
        simp only [reduceCtorEq, false_iff]
        rintro h
        cases h with
        | cons _ h =>
          have := (ih _).2 h
          simp [hl] at this
      | ok m =>
        simp only [Except.ok.injEq]
        constructor
        · rintro rfl
          exact .cons ha ((ih _).1 hl)
        · intro h
          cases h with
          | cons h1 h2 =>
            have h3 := (ih _).2 h2
            rw [hl] at h3
            rw [ha] at h1
            injection h1 with h1
            injection h3 with h3
            rw [h1, h3]

theorem meansAll_iff (l : List Yaml) (l' : List Val) : MeansAll l l' ↔ List.Forall₂ Means l l' := by
  induction l generalizing l' with
  | nil => exact ⟨fun h => by cases h; exact .nil, fun h => by cases h; exact .nil⟩
  | cons y l ih =>
    constructor
    · intro h
      cases h with
      | cons h1 h2 => exact .cons h1 ((ih _).1 h2)
    · intro h
      cases h with
      | cons h1 h2 => exact .cons h1 ((ih _).2 h2)

theorem hasAny_of_mem (s : String) (y : Yaml) (l : List Yaml) (h : y ∈ l) (hs : y.Has s) : HasAny s l := by
  induction l with
  | nil => simp at h
  | cons a l ih =>
    rcases List.mem_cons.1 h with rfl | h
    · exact .head hs
    · exact .tail (ih h)

theorem mem_of_hasAny (s : String) (l : List Yaml) (h : HasAny s l) : ∃ y ∈ l, y.Has s := by
  induction l with
  | nil => cases h
  | cons a l ih =>
    cases h with
    | head h => exact ⟨a, by simp, h⟩
    | tail h =>
      obtain ⟨y, hy, h⟩ := ih h
      exact ⟨y, by simp [hy], h⟩

theorem has_int (s : String) (z : Int) : ¬ (Yaml.int z).Has s := fun h => by cases h

theorem has_null (s : String) : ¬ Yaml.null.Has s := fun h => by cases h

theorem has_text (s : String) (t : Tree Leaf) : (Yaml.text t).Has s ↔ t.Mem (.name s) :=
  ⟨fun h => by cases h; assumption, .text⟩

theorem has_list (s : String) (l : List Yaml) : (Yaml.list l).Has s ↔ ∃ y ∈ l, y.Has s :=
  ⟨fun h => by cases h with | list h => exact mem_of_hasAny s l h, fun ⟨y, hy, h⟩ => .list (hasAny_of_mem s y l hy h)⟩

theorem mem_leaf {α : Type} (x a : α) : (Tree.leaf a).Mem x ↔ x = a := ⟨fun h => by cases h; rfl, fun h => h ▸ .leaf⟩

theorem mem_bin {α : Type} (x : α) (op : Op) (a b : Tree α) : (Tree.bin op a b).Mem x ↔ a.Mem x ∨ b.Mem x :=
  ⟨fun h => by
    cases h with
    | left h => exact Or.inl h
    | right h => exact Or.inr h, fun h => h.elim .left .right⟩

theorem readLoop_iff (ns : Namespace) (x : String × Yaml × Yaml × Yaml) (l : String × Val × Val × Val)
    (h : ∀ s, x.2.1.Has s ∨ x.2.2.1.Has s ∨ x.2.2.2.Has s → Plain (fun s => ns s ≠ none) s) :
    readLoop ns x = .ok l ↔ l.1 = x.1 ∧ Means x.2.1 l.2.1 ∧ Means x.2.2.1 l.2.2.1 ∧ Means x.2.2.2 l.2.2.2 := by
  obtain ⟨n, a, b, c⟩ := l
  simp only
  rw [← toSympy_iff ns _ _ fun s hs => h s (Or.inl hs), ← toSympy_iff ns _ _ fun s hs => h s (Or.inr (Or.inl hs)), ← toSympy_iff ns _ _ fun s hs => h s (Or.inr (Or.inr hs))]
  unfold readLoop
  cases toSympy ns x.2.1 <;> cases toSympy ns x.2.2.1 <;> cases toSympy ns x.2.2.2 <;> simp [eq_comm]

theorem readArray_iff (ns : Namespace) (x : String × List String × Yaml) (v : String × List String × Option (List Val))
    (h : ∀ s, x.2.2.Has s → Plain (fun s => ns s ≠ none) s) :
    readArray ns x = .ok v ↔ v.1 = x.1 ∧ v.2.1 = x.2.1 ∧ MeansSize x.2.2 v.2.2 := by
  obtain ⟨n, t, z⟩ := v
  have hs : MeansSize x.2.2 z ↔ toSympy ns x.2.2 = .ok (match z with | some l => .tuple l | none => .none) := by
    cases z <;> simp only [MeansSize] <;> rw [toSympy_iff ns _ _ h]
  simp only
  rw [hs]
  unfold readArray
  cases z <;> rcases toSympy ns x.2.2 with _ | (_ | _ | _) <;> simp [eq_comm]

theorem readAccesses_spec (ns : Namespace) (x : String × List Yaml) (h : ∀ s, ∀ y ∈ x.2, y.Has s → Plain (fun s => ns s ≠ none) s) :
    (∀ r, readAccesses ns x = .ok r → SameAccesses x r) ∧ ((∀ y ∈ x.2, ∃ v, Means y v) → ∃ r, readAccesses ns x = .ok r) := by
  have hall := fun l' => toSympyAll_iff ns x.2 l' fun s hs => by
    obtain ⟨y, hy, hs⟩ := mem_of_hasAny s _ hs
    exact h s y hy hs
  unfold readAccesses
  refine ⟨fun r hr => ?_, fun hm => ?_⟩
  · cases hl : toSympyAll ns x.2 with
    | error e => simp [hl] at hr
    | ok l =>
      simp only [hl, Except.ok.injEq] at hr
      subst hr
      have hf := (meansAll_iff _ _).1 ((hall l).1 hl)
      refine ⟨rfl, List.nodup_dedup l, fun y hy => ?_, fun v hv => ?_⟩
      · simp only [List.mem_dedup]
        clear hl hall h
        generalize x.2 = xs at hf hy
        induction hf with
        | nil => simp at hy
        | cons h1 _ ih =>
          rcases List.mem_cons.1 hy with rfl | hy
          · exact ⟨_, by simp, h1⟩
          · obtain ⟨v, hv, h⟩ := ih hy
            exact ⟨v, by simp [hv], h⟩
      · rw [List.mem_dedup] at hv
        clear hl hall h
        generalize x.2 = xs at hf
        induction hf with
        | nil => simp at hv
        | cons h1 _ ih =>
          rcases List.mem_cons.1 hv with rfl | hv
          · exact ⟨_, by simp, h1⟩
          · obtain ⟨y, hy, h⟩ := ih hv
            exact ⟨y, by simp [hy], h⟩
  · have : ∃ l, List.Forall₂ Means x.2 l := by
      clear hall h
      generalize x.2 = xs at hm
      induction xs with
      | nil => exact ⟨[], .nil⟩
      | cons y xs ih =>
        obtain ⟨v, hv⟩ := hm y (by simp)
        obtain ⟨l, hl⟩ := ih fun y hy => hm y (by simp [hy])
        exact ⟨v :: l, .cons hv hl⟩
    obtain ⟨l, hl⟩ := this
    exact ⟨_, by rw [(hall l).2 ((meansAll_iff _ _).2 hl)]⟩

theorem put_new {β : Type} (k : String) (v : β) (l : List (String × β)) (h : k ∉ l.map (·.1)) : put k v l = l ++ [(k, v)] := by
  induction l with
  | nil => rfl
  | cons a l ih =>
    obtain ⟨k1, v1⟩ := a
    simp only [List.map_cons, List.mem_cons, not_or] at h
    unfold put
    rw [if_neg (Ne.symm h.1), ih h.2]
    rfl

theorem fold_put {β : Type} (ds l : List (String × β)) (h : ((l ++ ds).map (·.1)).Nodup) : ds.foldl (fun l d => put d.1 d.2 l) l = l ++ ds := by
  induction ds generalizing l with
  | nil => simp
  | cons d ds ih =>
    rw [List.foldl_cons, put_new, ih]
    · simp
    · simpa using h
    · intro hd
      rw [List.map_append, List.nodup_append] at h
      exact h.2.2 _ hd _ (by simp) rfl

/-- Distinct names: the variables are the declarations. -/
theorem describe_spec {δ : Type} (ds : List (String × Ty × Option δ)) (hk : (ds.map (·.1)).Nodup) :
    ((∃ s, describe ds = .ok s) ↔ ds ≠ [] ∧ ∃ t, Supported t ∧ ∀ d ∈ ds, d.2.1 = t) ∧
    ∀ s, describe ds = .ok s → s.vars = ds ∧ ∀ d ∈ ds, s.datatype = some d.2.1 := by
  obtain ⟨h1, h2⟩ := fold_spec ds {} uniform_init
  rw [describe_eq]
  by_cases hne : ds = []
  · simp [hne]
  · rw [if_neg hne, declare_eq]
    refine ⟨?_, fun s hs => ?_⟩
    · rw [h2]
      constructor
      · rintro ⟨t, -, ht⟩
        obtain ⟨d, hd⟩ := List.exists_mem_of_ne_nil _ hne
        exact ⟨hne, t, (ht d hd).2, fun d hd => (ht d hd).1⟩
      · rintro ⟨-, t, hs, ht⟩
        exact ⟨t, Or.inl rfl, fun d hd => ⟨ht d hd, hs⟩⟩
    · obtain ⟨-, g2, -, g4⟩ := h1 s hs
      refine ⟨?_, g2⟩
      rw [g4, fold_put ds [] (by simpa using hk)]
      rfl


theorem forall₂_congr {α β : Type} {R S : α → β → Prop} (l : List α) (r : List β) (h : ∀ x ∈ l, ∀ y, R x y ↔ S x y) :
    List.Forall₂ R l r ↔ List.Forall₂ S l r := by
  induction l generalizing r with
  | nil => simp
  | cons a l ih =>
    cases r with
    | nil => simp
    | cons b r => rw [List.forall₂_cons, List.forall₂_cons, h a (by simp), ih r fun x hx => h x (by simp [hx])]

theorem forall₂_exists {α β : Type} {R : α → β → Prop} (l : List α) (h : ∀ x ∈ l, ∃ y, R x y) : ∃ r, List.Forall₂ R l r := by
  induction l with
  | nil => exact ⟨[], .nil⟩
  | cons a l ih =>
    obtain ⟨y, hy⟩ := h a (by simp)
    obtain ⟨r, hr⟩ := ih fun x hx => h x (by simp [hx])
    exact ⟨y :: r, .cons hy hr⟩

theorem forall₂_left {α β : Type} {R : α → β → Prop} {l : List α} {r : List β} (h : List.Forall₂ R l r) : ∀ x ∈ l, ∃ y ∈ r, R x y := by
  induction h with
  | nil => simp
  | cons h1 _ ih =>
    intro x hx
    rcases List.mem_cons.1 hx with rfl | hx
    · exact ⟨_, by simp, h1⟩
    · obtain ⟨y, hy, h⟩ := ih x hx
      exact ⟨y, by simp [hy], h⟩

theorem forall₂_right {α β : Type} {R : α → β → Prop} {l : List α} {r : List β} (h : List.Forall₂ R l r) : ∀ y ∈ r, ∃ x ∈ l, R x y := by
  induction h with
  | nil => simp
  | cons h1 _ ih =>
    intro x hx
    rcases List.mem_cons.1 hx with rfl | hx
    · exact ⟨_, by simp, h1⟩
    · obtain ⟨y, hy, h⟩ := ih x hx
      exact ⟨y, by simp [hy], h⟩

theorem accesses_spec (ns : Namespace) (l : List (String × List Yaml)) (h : ∀ s, ∀ a ∈ l, ∀ y ∈ a.2, y.Has s → Plain (fun s => ns s ≠ none) s) :
    (∀ r, l.mapM (readAccesses ns) = .ok r → List.Forall₂ SameAccesses l r) ∧
    ((∃ r, List.Forall₂ SameAccesses l r) → ∃ r, l.mapM (readAccesses ns) = .ok r) := by
  simp only [mapM_iff]
  refine ⟨fun r hr => ?_, fun ⟨r, hr⟩ => ?_⟩
  · induction hr with
    | nil => exact .nil
    | cons h1 _ ih =>
      exact .cons ((readAccesses_spec ns _ fun s y hy => h s _ (by simp) y hy).1 _ h1) (ih fun s a ha => h s a (by simp [ha]))
  · refine forall₂_exists l fun a ha => (readAccesses_spec ns a fun s y hy => h s a ha y hy).2 fun y hy => ?_
    obtain ⟨b, -, -, -, hb, -⟩ := forall₂_left hr a ha
    obtain ⟨v, -, hv⟩ := hb y hy
    exact ⟨v, hv⟩

end Verif.Description
