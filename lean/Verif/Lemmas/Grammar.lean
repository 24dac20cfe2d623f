import Verif.Lemmas.Parse

/-!
The parser accepts exactly the grammar: lemmas for C46 and C55.
-/

namespace Verif.Parse

open Verif.Text Verif.CSem

/-- Accepted without exception. -/
def Ok {α : Type} (x : Except Err α) : Prop := ∃ a, x = .ok a

theorem ok_ok {α : Type} (a : α) : Ok (.ok a : Except Err α) := ⟨a, rfl⟩

theorem not_ok_error {α : Type} (e : Err) : ¬ Ok (.error e : Except Err α) := by
  rintro ⟨a, h⟩
  cases h

theorem ok_bind {α β : Type} (x : Except Err α) (f : α → Except Err β) : Ok (x >>= f) ↔ ∃ a, x = .ok a ∧ Ok (f a) := by
  cases x with
  | error e =>
    constructor
    · rintro ⟨a, h⟩; cases h
    · rintro ⟨a, h, _⟩; cases h
  | ok a =>
    constructor
    · intro h; exact ⟨a, rfl, h⟩
    · rintro ⟨b, h, h'⟩
      cases h
      exact h'

theorem ok_map {α β : Type} (x : Except Err α) (f : α → β) : Ok (x.map f) ↔ Ok x := by
  cases x with
  | error e => exact ⟨fun h => absurd h (not_ok_error e), fun h => absurd h (not_ok_error e)⟩
  | ok a => exact ⟨fun _ => ok_ok a, fun _ => ok_ok (f a)⟩

theorem isDigit_iff (c : Char) : isDigit c = true ↔ '0' ≤ c ∧ c ≤ '9' := by
  unfold isDigit
  simp only [Bool.and_eq_true, decide_eq_true_eq]
  constructor
  · rintro ⟨h1, h2⟩
    exact ⟨UInt32.le_iff_toNat_le.mpr h1, UInt32.le_iff_toNat_le.mpr h2⟩
  · rintro ⟨h1, h2⟩
    exact ⟨UInt32.le_iff_toNat_le.mp h1, UInt32.le_iff_toNat_le.mp h2⟩

theorem parseDigits_all (t : List Char) (acc : Nat) (b : Bool) (h : t.all isDigit = true) (hb : b = true ∨ t ≠ []) :
    parseDigits acc b t = some (t.foldl (fun a c => 10 * a + (c.toNat - 48)) acc) := by
  induction t generalizing acc b with
  | nil =>
    rcases hb with rfl | hb
    · rfl
    · exact absurd rfl hb
  | cons c t ih =>
    simp only [List.all_cons, Bool.and_eq_true] at h
    unfold parseDigits
    rw [if_pos h.1]
    exact ih _ _ h.2 (Or.inl rfl)

theorem toInt_number (t : List Char) (h : Number t) :
    toInt t = .ok (t.foldl (fun a c => 10 * a + (c.toNat - 48)) 0 : Nat) := by
  obtain ⟨hne, hd⟩ := h
  have hall : t.all isDigit = true := List.all_eq_true.mpr fun c hc => (isDigit_iff c).mpr (hd c hc)
  unfold toInt
  rw [if_pos hall]
  have : parseInt t = (parseDigits 0 false t).map fun n : Nat => (n : Int) := by
    match t, hne, hd with
    | c :: r, _, hd =>
      unfold parseInt
      have := hd c (by simp)
      split
      · rename_i heq
        simp only [List.cons.injEq] at heq
        rw [heq.1] at this
        exact absurd this (by decide)
      · rename_i heq
        simp only [List.cons.injEq] at heq
        rw [heq.1] at this
        exact absurd this (by decide)
      · rfl
  rw [this, parseDigits_all t 0 false hall (Or.inr hne)]
  rfl

theorem toInt_iff (t : List Char) : Ok (toInt t) ↔ Number t := by
  constructor
  · intro h
    unfold toInt at h
    split at h
    · rename_i hall
      refine ⟨?_, fun c hc => (isDigit_iff c).mp (List.all_eq_true.mp hall c hc)⟩
      rintro rfl
      exact not_ok_error _ h
    · exact absurd h (not_ok_error _)
  · intro h
    rw [toInt_number t h]
    exact ok_ok _

theorem symOp_iff (op : String) : (∃ f, symOp op = some f) ↔ op ∈ ["+", "-", "*"] := by
  unfold symOp
  simp only [List.mem_cons, List.not_mem_nil, or_false]
  by_cases h1 : op = "*"
  · simp [h1]
  · by_cases h2 : op = "+"
    · simp [h2]
    · by_cases h3 : op = "-"
      · simp [h3]
      · simp [h1, h2, h3]

theorem conv_iff (e : Expr) : Ok (conv e) ↔ Arith e := by
  induction e with
  | id n => exact ⟨fun _ => .id n, fun _ => ok_ok _⟩
  | const t =>
    unfold conv
    rw [ok_map, toInt_iff]
    exact ⟨fun h => .const t h, fun h => by cases h; assumption⟩
  | bin op l r ihl ihr =>
    unfold conv
    constructor
    · intro h
      split at h
      · exact absurd h (not_ok_error _)
      · rename_i f hf
        rw [ok_bind] at h
        obtain ⟨a, ha, h⟩ := h
        rw [ok_bind] at h
        obtain ⟨b, hb, _⟩ := h
        exact .bin op l r ((symOp_iff op).mp ⟨f, hf⟩) (ihl.mp ⟨a, ha⟩) (ihr.mp ⟨b, hb⟩)
    · intro h
      cases h with
      | bin _ _ _ h hl hr =>
        obtain ⟨f, hf⟩ := (symOp_iff op).mpr h
        obtain ⟨a, ha⟩ := ihl.mpr hl
        obtain ⟨b, hb⟩ := ihr.mpr hr
        rw [hf, ha, hb]
        exact ok_ok _
  | un op e _ =>
    constructor
    · intro h
      unfold conv at h
      split at h <;> exact absurd h (not_ok_error _)
    · intro h; cases h
  | ref a s _ _ => exact ⟨fun h => absurd h (not_ok_error _), fun h => by cases h⟩
  | other => exact ⟨fun h => absurd h (not_ok_error _), fun h => by cases h⟩

/-- An `ArrayRef` is accepted. -/
theorem offsetsIn_iff (e : Expr) : Ok (offsetsIn e) ↔ Place e ∧ ∀ n, e ≠ .id n := by
  induction e with
  | ref a s iha _ =>
    unfold offsetsIn
    constructor
    · intro h
      refine ⟨?_, by simp⟩
      split at h
      · exact absurd h (not_ok_error _)
      · split at h
        · exact absurd h (not_ok_error _)
        · rw [ok_bind] at h
          obtain ⟨x, hx, h⟩ := h
          have hs := (conv_iff s).mp ⟨x, hx⟩
          refine .ref a s ?_ hs
          cases a with
          | id n => exact .id n
          | _ =>
            rw [ok_bind] at h
            obtain ⟨y, hy, _⟩ := h
            exact (iha.mp ⟨y, hy⟩).1
    · rintro ⟨h, _⟩
      cases h with
      | ref _ _ ha hs =>
        obtain ⟨x, hx⟩ := (conv_iff s).mpr hs
        have h1 : isRefOrId a = true := by cases ha <;> rfl
        have h2 : isSubscript s = true := by cases hs <;> rfl
        rw [h1, h2, hx]
        simp only [Bool.not_true, Bool.false_eq_true, if_false]
        rw [ok_bind]
        refine ⟨x, rfl, ?_⟩
        cases a with
        | id n => exact ok_ok _
        | ref a' s' =>
          obtain ⟨y, hy⟩ := iha.mpr ⟨ha, by simp⟩
          simp only
          rw [ok_bind]
          exact ⟨y, hy, ok_ok _⟩
        | const t => cases ha
        | bin _ _ _ => cases ha
        | un _ _ => cases ha
        | other => cases ha
  | id n => exact ⟨fun h => absurd h (not_ok_error _), fun h => absurd rfl (h.2 n)⟩
  | const t => exact ⟨fun h => absurd h (not_ok_error _), fun h => by cases h.1⟩
  | bin _ _ _ => exact ⟨fun h => absurd h (not_ok_error _), fun h => by cases h.1⟩
  | un _ _ => exact ⟨fun h => absurd h (not_ok_error _), fun h => by cases h.1⟩
  | other => exact ⟨fun h => absurd h (not_ok_error _), fun h => by cases h.1⟩

theorem offsets_iff (e : Expr) : Ok (offsets e) ↔ Place e := by
  cases e with
  | id n => exact ⟨fun _ => .id n, fun _ => ok_ok _⟩
  | ref a s =>
    unfold offsets
    rw [ok_map, offsetsIn_iff]
    exact ⟨fun h => h.1, fun h => ⟨h, by simp⟩⟩
  | const t => exact ⟨fun h => absurd h (not_ok_error _), fun h => by cases h⟩
  | bin _ _ _ => exact ⟨fun h => absurd h (not_ok_error _), fun h => by cases h⟩
  | un _ _ => exact ⟨fun h => absurd h (not_ok_error _), fun h => by cases h⟩
  | other => exact ⟨fun h => absurd h (not_ok_error _), fun h => by cases h⟩

theorem basename_place (e : Expr) (h : Place e) : Ok (basename e) := by
  induction h with
  | id n => exact ok_ok _
  | ref a s _ _ ih => exact ih

theorem addSource_iff (b : Body) (e : Expr) : Ok (addSource b e) ↔ Place e := by
  unfold addSource
  constructor
  · intro h
    rw [ok_bind] at h
    obtain ⟨n, _, h⟩ := h
    rw [ok_bind] at h
    obtain ⟨o, ho, _⟩ := h
    exact (offsets_iff e).mp ⟨o, ho⟩
  · intro h
    obtain ⟨n, hn⟩ := basename_place e h
    obtain ⟨o, ho⟩ := (offsets_iff e).mpr h
    rw [hn, ho]
    exact ok_ok _

theorem pSources_iff (e : Expr) (b : Body) : Ok (pSources e b) ↔ Rhs e := by
  induction e generalizing b with
  | id n =>
    unfold pSources
    rw [addSource_iff]
    exact ⟨fun h => .place _ h, fun _ => .id n⟩
  | const t => exact ⟨fun _ => .const t, fun _ => ok_ok _⟩
  | bin op l r ihl ihr =>
    unfold pSources
    constructor
    · intro h
      rw [ok_bind] at h
      obtain ⟨b1, h1, h⟩ := h
      rw [ok_bind] at h
      obtain ⟨b2, h2, _⟩ := h
      exact .bin op l r ((ihl b).mp ⟨b1, h1⟩) ((ihr b1).mp ⟨b2, h2⟩)
    · intro h
      cases h with
      | place _ h => cases h
      | bin _ _ _ hl hr =>
        obtain ⟨b1, h1⟩ := (ihl b).mpr hl
        rw [ok_bind]
        refine ⟨b1, h1, ?_⟩
        obtain ⟨b2, h2⟩ := (ihr b1).mpr hr
        rw [ok_bind]
        exact ⟨b2, h2, ok_ok _⟩
  | un op e ih =>
    unfold pSources
    constructor
    · intro h
      split at h
      · exact absurd h (not_ok_error _)
      · rename_i hop
        rw [ok_bind] at h
        obtain ⟨b1, h1, _⟩ := h
        have hop : unaryOps.contains op = true := by
          cases h : unaryOps.contains op <;> simp_all
        exact .un op e (by simpa [unaryOps] using hop) ((ih b).mp ⟨b1, h1⟩)
    · intro h
      cases h with
      | place _ h => cases h
      | un _ _ hop he =>
        have : unaryOps.contains op = true := by simpa [unaryOps] using hop
        rw [this]
        simp only [Bool.not_true, Bool.false_eq_true, if_false]
        obtain ⟨b1, h1⟩ := (ih b).mpr he
        rw [ok_bind]
        exact ⟨b1, h1, ok_ok _⟩
  | ref a s _ _ =>
    unfold pSources
    rw [addSource_iff]
    exact ⟨fun h => .place _ h, fun h => by cases h; assumption⟩
  | other =>
    refine ⟨fun h => absurd h (not_ok_error _), fun h => ?_⟩
    cases h with
    | place _ h => cases h

theorem pAssignment_iff (op : String) (lv rv : Expr) (b : Body) : Ok (pAssignment op lv rv b) ↔ Place lv ∧ Rhs rv := by
  unfold pAssignment
  constructor
  · intro h
    split at h
    · exact absurd h (not_ok_error _)
    · rw [ok_bind] at h
      obtain ⟨n, _, h⟩ := h
      rw [ok_bind] at h
      obtain ⟨o, ho, h⟩ := h
      exact ⟨(offsets_iff lv).mp ⟨o, ho⟩, (pSources_iff rv _).mp h⟩
  · rintro ⟨hl, hr⟩
    have h1 : isRefOrId lv = true := by cases hl <;> rfl
    rw [h1]
    simp only [Bool.not_true, Bool.false_eq_true, if_false]
    obtain ⟨n, hn⟩ := basename_place lv hl
    obtain ⟨o, ho⟩ := (offsets_iff lv).mpr hl
    rw [hn, ho]
    exact (pSources_iff rv _).mpr hr

/-! ### Heads of loops -/

theorem pCond_ok (c : Option Expr) (l r : Expr) : pCond c = .ok (l, r) ↔ ∃ n, l = .id n ∧ c = some (.bin "<" (.id n) r) := by
  constructor
  · intro h
    match c with
    | none => simp [pCond] at h
    | some (.bin op l' r') =>
      simp only [pCond] at h
      split at h
      · simp at h
      · rename_i hop
        have hop : op = "<" := by simpa [inLt] using hop
        subst hop
        split at h
        · rename_i n
          simp only [Except.ok.injEq, Prod.mk.injEq] at h
          obtain ⟨rfl, rfl⟩ := h
          exact ⟨n, rfl, rfl⟩
        · simp at h
    | some (.un op e) =>
      simp only [pCond] at h
      split at h <;> simp at h
    | some (.id _) => simp [pCond] at h
    | some (.const _) => simp [pCond] at h
    | some (.ref _ _) => simp [pCond] at h
    | some .other => simp [pCond] at h
  · rintro ⟨n, rfl, rfl⟩
    rfl

theorem pStop_eq_conv (e : Expr) (h : Arith e) : pStop e = conv e := by
  cases h with
  | id n => rfl
  | const t _ => rfl
  | bin op l r hop _ _ =>
    simp only [pStop]
    have : inOps op = true := by
      simp only [List.mem_cons, List.not_mem_nil, or_false] at hop
      rcases hop with rfl | rfl | rfl <;> decide
    rw [this]
    rfl

theorem pStop_iff (e : Expr) : Ok (pStop e) ↔ Arith e := by
  constructor
  · intro h
    cases e with
    | id n => exact .id n
    | const t => exact (conv_iff (.const t)).mp h
    | bin op l r =>
      simp only [pStop] at h
      split at h
      · exact absurd h (not_ok_error _)
      · exact (conv_iff _).mp h
    | un _ _ => exact absurd h (not_ok_error _)
    | ref _ _ => exact absurd h (not_ok_error _)
    | other => exact absurd h (not_ok_error _)
  · intro h
    rw [pStop_eq_conv e h]
    exact (conv_iff e).mpr h

theorem pNext_iff (a n : String) (next : Next) : Ok (pNext a n next) ↔ a = n ∧ Incr n next := by
  constructor
  · intro h
    cases next with
    | other => exact absurd h (not_ok_error _)
    | assign op lv rv =>
      simp only [pNext] at h
      split at h
      · exact absurd h (not_ok_error _)
      · rename_i hop
        have hop : op = "+=" := by by_contra hne; exact hop hne
        subst hop
        split at h
        · rename_i m t
          split at h
          · rename_i hm
            obtain ⟨rfl, rfl⟩ := hm
            exact ⟨rfl, .add t ((toInt_iff t).mp h)⟩
          · exact absurd h (not_ok_error _)
        · exact absurd h (not_ok_error _)
    | un op e =>
      simp only [pNext] at h
      split at h
      · exact absurd h (not_ok_error _)
      · rename_i hop
        split at h
        · rename_i m
          split at h
          · rename_i hm
            obtain ⟨rfl, rfl⟩ := hm
            split at h
            · exact absurd h (not_ok_error _)
            · rename_i hop2
              have : op = "++" ∨ op = "p++" := by
                have h1 : op = "++" ∨ op = "p++" ∨ op = "+=" := by
                  by_contra hne
                  push Not at hne
                  exact hop (by simp [hne])
                rcases h1 with h1 | h1 | h1
                · exact Or.inl h1
                · exact Or.inr h1
                · exact absurd (by subst h1; decide) hop2
              rcases this with rfl | rfl
              · exact ⟨rfl, .pre⟩
              · exact ⟨rfl, .post⟩
          · exact absurd h (not_ok_error _)
        · exact absurd h (not_ok_error _)
  · rintro ⟨rfl, h⟩
    cases h with
    | pre => exact ⟨1, by simp [pNext]⟩
    | post => exact ⟨1, by simp [pNext]⟩
    | add t ht =>
      obtain ⟨v, hv⟩ := (toInt_iff t).mpr ht
      exact ⟨v, by simp [pNext, hv]⟩

/-- What an accepted head looks like, and what is recorded. -/
theorem pHeader_ok (h : Header) (x : Entry) : pHeader h = .ok x ↔
    ∃ n type e f, h.init = .decls [(n, type, some e)] ∧ h.cond = some (.bin "<" (.id n) f) ∧ x.name = n ∧
      conv e = .ok x.start ∧ pStop f = .ok x.stop ∧ pNext n n h.next = .ok x.incr := by
  obtain ⟨init, cond, next⟩ := h
  constructor
  · intro hh
    unfold pHeader at hh
    simp only at hh
    split at hh
    · rename_i n type oe
      obtain ⟨⟨l, r⟩, h1, hh1⟩ := bind_ok hh
      obtain ⟨stop, h2, hh2⟩ := bind_ok hh1
      obtain ⟨m, rfl, rfl⟩ := (pCond_ok _ _ _).mp h1
      clear hh hh1
      cases oe with
      | none => cases hh2
      | some e =>
        obtain ⟨start, h3, hh3⟩ := bind_ok hh2
        obtain ⟨incr, h4, hh4⟩ := bind_ok hh3
        clear hh2 hh3
        simp only [Except.ok.injEq] at hh4
        subst hh4
        obtain ⟨rfl, _⟩ := (pNext_iff n m next).mp ⟨incr, h4⟩
        exact ⟨n, type, e, r, rfl, rfl, rfl, h3, h2, h4⟩
    · simp at hh
  · rintro ⟨n, type, e, f, h1, h2, rfl, h3, h4, h5⟩
    simp only at h1 h2 h3 h4 h5
    subst h1 h2
    unfold pHeader
    simp only [pCond, inLt]
    simp [bind, Except.bind, h3, h4, h5]

theorem pHeader_iff (h : Header) : Ok (pHeader h) ↔ Head h := by
  constructor
  · rintro ⟨x, hx⟩
    obtain ⟨n, type, e, f, h1, h2, _, h3, h4, h5⟩ := (pHeader_ok h x).mp hx
    obtain ⟨init, cond, next⟩ := h
    simp only at h1 h2 h5
    subst h1 h2
    exact .mk n type e f next ((conv_iff e).mp ⟨_, h3⟩) ((pStop_iff f).mp ⟨_, h4⟩) ((pNext_iff n n next).mp ⟨_, h5⟩).2
  · intro hh
    cases hh with
    | mk n type e f next he hf hn =>
      obtain ⟨a, ha⟩ := (conv_iff e).mpr he
      obtain ⟨b, hb⟩ := (pStop_iff f).mpr hf
      obtain ⟨c, hc⟩ := (pNext_iff n n next).mpr ⟨rfl, hn⟩
      exact ⟨⟨n, a, b, c⟩, (pHeader_ok _ _).mpr ⟨n, type, e, f, rfl, rfl, rfl, ha, hb, hc⟩⟩

/-! ### Loop nests -/

theorem pLeaf_iff (items : List Stmt) (b : Body) : Ok (pLeaf items b) ↔ ∀ s ∈ items, Simple s := by
  induction items generalizing b with
  | nil => exact ⟨fun _ => by simp, fun _ => ok_ok _⟩
  | cons s rest ih =>
    constructor
    · intro h
      cases s with
      | pragma =>
        simp only [pLeaf] at h
        intro x hx
        rcases List.mem_cons.mp hx with rfl | hx
        · exact .pragma
        · exact (ih b).mp h x hx
      | assign op lv rv =>
        simp only [pLeaf] at h
        rw [ok_bind] at h
        obtain ⟨b1, h1, h⟩ := h
        obtain ⟨hl, hr⟩ := (pAssignment_iff op lv rv b).mp ⟨b1, h1⟩
        intro x hx
        rcases List.mem_cons.mp hx with rfl | hx
        · exact .assign op lv rv hl hr
        · exact (ih b1).mp h x hx
      | loop _ _ => exact absurd h (not_ok_error _)
      | compound _ => exact absurd h (not_ok_error _)
      | decl _ _ => exact absurd h (not_ok_error _)
      | call _ => exact absurd h (not_ok_error _)
      | other => exact absurd h (not_ok_error _)
    · intro h
      have hr := fun b => (ih b).mpr fun x hx => h x (List.mem_cons_of_mem _ hx)
      cases h s (by simp) with
      | pragma => exact hr b
      | assign op lv rv hl hr' =>
        simp only [pLeaf]
        obtain ⟨b1, h1⟩ := (pAssignment_iff op lv rv b).mpr ⟨hl, hr'⟩
        rw [ok_bind]
        exact ⟨b1, h1, hr b1⟩

theorem enter_iff (h : Header) (body : Stmt) (s : St) : Ok (enter h body s) ↔ Head h ∧ isBody body = true := by
  constructor
  · rintro ⟨s', he⟩
    obtain ⟨e, h1, _, h2⟩ := enter_body he
    exact ⟨(pHeader_iff h).mp ⟨e, h1⟩, h2⟩
  · rintro ⟨h1, h2⟩
    obtain ⟨e, he⟩ := (pHeader_iff h).mpr h1
    unfold enter
    rw [h2, he]
    exact ok_ok _

mutual

theorem pBody_sound (st : Stmt) (s : St) (hok : Ok (pBody st s)) (h : Header) (hd : Head h) : Nest (.loop h st) := by
  match st with
  | .loop hd' body =>
    unfold pBody at hok
    split at hok
    · exact absurd hok (not_ok_error _)
    · rename_i s1 he
      obtain ⟨h1, _⟩ := (enter_iff hd' body s).mp ⟨s1, he⟩
      exact .loop h hd' body hd (pBody_sound body s1 hok hd' h1)
  | .assign op lv rv =>
    unfold pBody at hok
    rw [ok_bind] at hok
    obtain ⟨b, h1, _⟩ := hok
    obtain ⟨hl, hr⟩ := (pAssignment_iff op lv rv s.body).mp ⟨b, h1⟩
    exact .assign h op lv rv hd (.assign op lv rv hl hr)
  | .compound items =>
    unfold pBody at hok
    split at hok
    · rename_i r hr
      obtain ⟨ps, h', b', rfl, hp, hn⟩ := pNested_sound items s r hr hok
      exact .block h ps h' b' hd hp hn
    · split at hok
      · exact absurd hok (not_ok_error _)
      · rename_i hne
        rw [ok_bind] at hok
        obtain ⟨b, h1, _⟩ := hok
        exact .leaf h items hd (by simpa using hne) ((pLeaf_iff items s.body).mp ⟨b, h1⟩)
  | .pragma => simp only [pBody] at hok; exact absurd hok (not_ok_error _)
  | .decl n t => simp only [pBody] at hok; exact absurd hok (not_ok_error _)
  | .call n => simp only [pBody] at hok; exact absurd hok (not_ok_error _)
  | .other => simp only [pBody] at hok; exact absurd hok (not_ok_error _)

theorem pNested_sound (items : List Stmt) (s : St) (r : Except Err St) (h : pNested items s = some r) (hok : Ok r) :
    ∃ ps h' b', items = ps ++ [.loop h' b'] ∧ (∀ p ∈ ps, p = .pragma) ∧ Nest (.loop h' b') := by
  match items with
  | [] => simp [pNested] at h
  | .pragma :: rest =>
    simp only [pNested] at h
    obtain ⟨ps, h', b', rfl, hp, hn⟩ := pNested_sound rest s r h hok
    refine ⟨.pragma :: ps, h', b', rfl, ?_, hn⟩
    intro p hp'
    rcases List.mem_cons.mp hp' with rfl | hp'
    · rfl
    · exact hp p hp'
  | .loop hd body :: rest =>
    match rest with
    | [] =>
      simp only [pNested, Option.some.injEq] at h
      subst h
      split at hok
      · exact absurd hok (not_ok_error _)
      · rename_i s1 he
        obtain ⟨h1, _⟩ := (enter_iff hd body s).mp ⟨s1, he⟩
        exact ⟨[], hd, body, rfl, by simp, pBody_sound body s1 hok hd h1⟩
    | _ :: _ => simp [pNested] at h
  | .assign _ _ _ :: rest => simp [pNested] at h
  | .compound _ :: rest => simp [pNested] at h
  | .decl _ _ :: rest => simp [pNested] at h
  | .call _ :: rest => simp [pNested] at h
  | .other :: rest => simp [pNested] at h

end

theorem pNested_pragmas (ps : List Stmt) (hp : ∀ p ∈ ps, p = .pragma) (rest : List Stmt) (s : St) :
    pNested (ps ++ rest) s = pNested rest s := by
  induction ps with
  | nil => rfl
  | cons p ps ih =>
    have := hp p (by simp)
    subst this
    simp only [List.cons_append, pNested]
    exact ih fun p hp' => hp p (by simp [hp'])

theorem pNested_simple (items : List Stmt) (hs : ∀ s ∈ items, Simple s) (s : St) : pNested items s = none := by
  induction items with
  | nil => simp [pNested]
  | cons x rest ih =>
    cases hs x (by simp) with
    | pragma =>
      simp only [pNested]
      exact ih fun y hy => hs y (by simp [hy])
    | assign op lv rv _ _ => simp [pNested]

theorem pBody_complete (st : Stmt) (hn : Nest st) (s : St) : Ok (pBody st s) := by
  induction hn generalizing s with
  | loop h h' b' hd hb ih =>
    unfold pBody
    obtain ⟨s1, h1⟩ := (enter_iff h (.loop h' b') s).mpr ⟨hd, rfl⟩
    rw [h1]
    exact ih s1
  | assign h op lv rv hd hs =>
    unfold pBody
    obtain ⟨s1, h1⟩ := (enter_iff h (.assign op lv rv) s).mpr ⟨hd, rfl⟩
    rw [h1]
    simp only [pBody]
    cases hs with
    | assign _ _ _ hl hr =>
      obtain ⟨b, hb⟩ := (pAssignment_iff op lv rv s1.body).mpr ⟨hl, hr⟩
      rw [ok_bind]
      exact ⟨b, hb, ok_ok _⟩
  | block h ps h' b' hd hp hb ih =>
    unfold pBody
    obtain ⟨s1, h1⟩ := (enter_iff h (.compound (ps ++ [.loop h' b'])) s).mpr ⟨hd, rfl⟩
    rw [h1]
    simp only [pBody]
    rw [pNested_pragmas ps hp]
    simp only [pNested]
    have := ih s1
    unfold pBody at this
    exact this
  | leaf h items hd hne hs =>
    unfold pBody
    obtain ⟨s1, h1⟩ := (enter_iff h (.compound items) s).mpr ⟨hd, rfl⟩
    rw [h1]
    simp only [pBody]
    rw [pNested_simple items hs]
    simp only [List.isEmpty_iff, hne, if_false]
    obtain ⟨b, hb⟩ := (pLeaf_iff items s1.body).mpr hs
    rw [ok_bind]
    exact ⟨b, hb, ok_ok _⟩

theorem pFor_iff (st : Stmt) (s : St) : Ok (pFor st s) ↔ Nest st := by
  constructor
  · intro hok
    cases st with
    | loop h body =>
      simp only [pFor] at hok
      unfold pBody at hok
      split at hok
      · exact absurd hok (not_ok_error _)
      · rename_i s1 he
        obtain ⟨h1, _⟩ := (enter_iff h body s).mp ⟨s1, he⟩
        exact pBody_sound body s1 hok h h1
    | pragma => exact absurd hok (not_ok_error _)
    | assign _ _ _ => exact absurd hok (not_ok_error _)
    | compound _ => exact absurd hok (not_ok_error _)
    | decl _ _ => exact absurd hok (not_ok_error _)
    | call _ => exact absurd hok (not_ok_error _)
    | other => exact absurd hok (not_ok_error _)
  · intro hn
    have := pBody_complete st hn s
    cases hn <;> exact this

end Verif.Parse
