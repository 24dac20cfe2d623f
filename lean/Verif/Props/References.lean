import Verif.Props.Parse
import Mathlib.Data.List.Forall2

/-!
C66: recorded references.
-/

namespace Verif.Parse

open Verif.Text Verif.CSem

/-! ### Values of expressions -/

theorem digitVal_digit (c : Char) (h : '0' ≤ c ∧ c ≤ '9') : digitVal c = some (c.toNat - 48) ∧ c.toNat - 48 < 10 := by
  unfold digitVal
  rw [if_pos h]
  refine ⟨rfl, ?_⟩
  have := UInt32.le_iff_toNat_le.mp h.2
  have h9 : ('9' : Char).val.toNat = 57 := rfl
  have hc : c.val.toNat = c.toNat := rfl
  omega

theorem digits_decimal (t : List Char) (acc : Nat) (h : ∀ c ∈ t, '0' ≤ c ∧ c ≤ '9') :
    digits 10 acc t = some (t.foldl (fun a c => 10 * a + (c.toNat - 48)) acc) := by
  induction t generalizing acc with
  | nil => rfl
  | cons c t ih =>
    obtain ⟨h1, h2⟩ := digitVal_digit c (h c (by simp))
    unfold digits
    rw [h1]
    simp only [h2, if_true, List.foldl_cons]
    exact ih _ fun c hc => h c (by simp [hc])

theorem decimal_number (t : List Char) (h : decimal t = true) : Number t := by
  unfold decimal at h
  simp only [Bool.and_eq_true, List.all_eq_true, decide_eq_true_eq, Bool.or_eq_true, beq_iff_eq, bne_iff_ne] at h
  refine ⟨?_, h.1⟩
  rintro rfl
  simp at h

theorem digit_not_suffix (c : Char) (h : '0' ≤ c ∧ c ≤ '9') : ¬ c ∈ ['u', 'U', 'l', 'L'] := by
  intro hm
  simp only [List.mem_cons, List.not_mem_nil, or_false] at hm
  rcases hm with rfl | rfl | rfl | rfl <;> exact absurd h (by decide)

theorem constVal_decimal (t : List Char) (h : decimal t = true) :
    constVal t = some (t.foldl (fun a c => 10 * a + (c.toNat - 48)) 0) := by
  obtain ⟨hne, hd⟩ := decimal_number t h
  unfold constVal
  have hstrip : (t.reverse.dropWhile (fun c => c ∈ ['u', 'U', 'l', 'L'])).reverse = t := by
    cases hr : t.reverse with
    | nil => exact absurd (List.reverse_eq_nil_iff.mp hr) hne
    | cons c r =>
      have hc : c ∈ t := List.mem_reverse.mp (by rw [hr]; simp)
      have := digit_not_suffix c (hd c hc)
      rw [List.dropWhile_cons_of_neg (by simpa using this), ← hr, List.reverse_reverse]
  rw [hstrip]
  unfold decimal at h
  simp only [Bool.and_eq_true, Bool.or_eq_true, beq_iff_eq, bne_iff_ne] at h
  rcases h.2 with rfl | ⟨_, h0⟩
  · rfl
  · match t, hne, h0, hd with
    | c :: r, _, h0, hd =>
      have hc : c ≠ '0' := fun e => h0 (by rw [e]; rfl)
      split
      · rename_i heq; simp only [List.cons.injEq] at heq; exact absurd heq.1 hc
      · rename_i heq; simp only [List.cons.injEq] at heq; exact absurd heq.1 hc
      · rename_i heq; simp only [List.cons.injEq] at heq; exact absurd heq.1 hc
      · rename_i heq
        rw [← heq]
        exact digits_decimal _ 0 hd
      · rename_i heq; cases heq

/-- The recorded symbolic expression has the value of the C expression. -/
theorem conv_value (e : Expr) (s : Sym) (h : conv e = .ok s) (hp : plain e = true) (env : Env) :
    eval env e = some (s.eval env) := by
  induction e generalizing s with
  | id n =>
    simp only [conv, Except.ok.injEq] at h
    subst h
    rfl
  | const t =>
    have hd : decimal t = true := hp
    unfold conv at h
    rw [toInt_number t (decimal_number t hd)] at h
    simp only [Except.map, Except.ok.injEq] at h
    subst h
    unfold eval
    rw [constVal_decimal t hd]
    rfl
  | bin op l r ihl ihr =>
    simp only [plain, Bool.and_eq_true] at hp
    unfold conv at h
    split at h
    · cases h
    · rename_i f hf
      obtain ⟨a, h1, h⟩ := bind_ok h
      obtain ⟨b, h2, h⟩ := bind_ok h
      simp only [Except.ok.injEq] at h
      subst h
      unfold eval
      rw [ihl a h1 hp.1, ihr b h2 hp.2]
      simp only [Option.bind_eq_bind, Option.bind_some]
      unfold symOp at hf
      by_cases h1 : op = "*"
      · subst h1
        simp only [if_true, Option.some.injEq] at hf
        subst hf
        simp [Sym.eval]
      · by_cases h2 : op = "+"
        · subst h2
          simp only [h1, if_false, if_true, Option.some.injEq] at hf
          subst hf
          simp [Sym.eval]
        · by_cases h3 : op = "-"
          · subst h3
            simp only [h1, h2, if_false, if_true, Option.some.injEq] at hf
            subst hf
            simp [Sym.eval]
          · simp [h1, h2, h3] at hf
  | un op e _ =>
    unfold conv at h
    split at h <;> cases h
  | ref a s _ _ => cases h
  | other => cases h

/-! ### C66: references -/

/-- A recorded reference belongs to a reference of the code: same name, and the recorded offsets have the values of the
subscripts, from left to right; a plain variable has no offsets. -/
def Recorded (x : String × Option (List Sym)) (e : Expr) : Prop :=
  ∃ n subs, flat e = some (n, subs) ∧ x.1 = n ∧
    ((subs = [] ∧ x.2 = none) ∨
      (subs ≠ [] ∧ ∃ l, x.2 = some l ∧ List.Forall₂ (fun s sub => ∀ env, eval env sub = some (Sym.eval env s)) l subs))

theorem basename_flat (e : Expr) (n : String) (h : basename e = .ok n) : ∃ subs, flat e = some (n, subs) := by
  induction e with
  | id m =>
    simp only [basename, Except.ok.injEq] at h
    subst h
    exact ⟨[], rfl⟩
  | ref a s iha _ =>
    obtain ⟨subs, hs⟩ := iha h
    exact ⟨subs ++ [s], by simp [flat, hs]⟩
  | const _ => cases h
  | bin _ _ _ => cases h
  | un _ _ => cases h
  | other => cases h

theorem offsetsIn_flat (e : Expr) (l : List Sym) (n : String) (subs : List Expr) (h : offsetsIn e = .ok l) (hp : plain e = true)
    (hf : flat e = some (n, subs)) :
    subs ≠ [] ∧ List.Forall₂ (fun s sub => ∀ env, eval env sub = some (Sym.eval env s)) l.reverse subs := by
  induction e generalizing l subs with
  | ref a s iha _ =>
    simp only [plain, Bool.and_eq_true] at hp
    unfold offsetsIn at h
    split at h
    · cases h
    · split at h
      · cases h
      · obtain ⟨x, h1, h⟩ := bind_ok h
        simp only [flat, Option.map_eq_some_iff, Prod.mk.injEq] at hf
        obtain ⟨⟨n', subs'⟩, hf', rfl, rfl⟩ := hf
        have hx := conv_value s x h1 hp.2
        refine ⟨by simp, ?_⟩
        cases a with
        | id m =>
          have : (Except.ok [x] : Except Err (List Sym)) = .ok l := h
          simp only [Except.ok.injEq] at this
          subst this
          simp only [flat, Option.some.injEq, Prod.mk.injEq] at hf'
          obtain ⟨_, rfl⟩ := hf'
          exact List.Forall₂.cons hx List.Forall₂.nil
        | ref a' s' =>
          obtain ⟨rest, h2, h⟩ := bind_ok h
          simp only [Except.ok.injEq] at h
          subst h
          obtain ⟨_, h3⟩ := iha rest subs' h2 hp.1 hf'
          rw [List.reverse_cons]
          exact List.rel_append h3 (List.Forall₂.cons hx List.Forall₂.nil)
        | const _ => cases hf'
        | bin _ _ _ => cases hf'
        | un _ _ => cases hf'
        | other => cases hf'
  | id _ => cases h
  | const _ => cases h
  | bin _ _ _ => cases h
  | un _ _ => cases h
  | other => cases h

theorem place_recorded (e : Expr) (n : String) (o : Option (List Sym)) (hp : plain e = true) (h1 : basename e = .ok n)
    (h2 : offsets e = .ok o) : Recorded (n, o) e := by
  obtain ⟨subs, hf⟩ := basename_flat e n h1
  refine ⟨n, subs, hf, rfl, ?_⟩
  cases e with
  | id m =>
    simp only [offsets, Except.ok.injEq] at h2
    simp only [flat, Option.some.injEq, Prod.mk.injEq] at hf
    exact Or.inl ⟨hf.2.symm, h2.symm⟩
  | ref a s =>
    simp only [offsets] at h2
    cases ho : offsetsIn (.ref a s) with
    | error e => rw [ho] at h2; cases h2
    | ok l =>
      rw [ho] at h2
      simp only [Except.map, Except.ok.injEq] at h2
      obtain ⟨g1, g2⟩ := offsetsIn_flat _ l n subs ho hp hf
      exact Or.inr ⟨g1, l.reverse, h2.symm, g2⟩
  | const _ => cases h1
  | bin _ _ _ => cases h1
  | un _ _ => cases h1
  | other => cases h1

theorem addSource_recorded (e : Expr) (b b' : Body) (hp : plain e = true) (h : addSource b e = .ok b') :
    ∃ x, b'.sources = b.sources ++ [x] ∧ Recorded x e ∧ b'.destinations = b.destinations := by
  unfold addSource at h
  obtain ⟨n, h1, h⟩ := bind_ok h
  obtain ⟨o, h2, h⟩ := bind_ok h
  simp only [Except.ok.injEq] at h
  subst h
  exact ⟨(n, o), rfl, place_recorded e n o hp h1 h2, rfl⟩

theorem pSources_recorded (e : Expr) (b b' : Body) (h : pSources e b = .ok b')
    (hr : ∀ x ∈ reads e, plain x = true) :
    ∃ xs, b'.sources = b.sources ++ xs ∧ List.Forall₂ Recorded xs (reads e) ∧ b'.destinations = b.destinations := by
  induction e generalizing b b' with
  | id n =>
    obtain ⟨x, h1, h2, h3⟩ := addSource_recorded (.id n) b b' rfl h
    exact ⟨[x], h1, List.Forall₂.cons h2 List.Forall₂.nil, h3⟩
  | ref a s _ _ =>
    obtain ⟨x, h1, h2, h3⟩ := addSource_recorded (.ref a s) b b' (hr _ (by simp [reads])) h
    exact ⟨[x], h1, List.Forall₂.cons h2 List.Forall₂.nil, h3⟩
  | const t =>
    simp only [pSources, Except.ok.injEq] at h
    subst h
    exact ⟨[], by simp, List.Forall₂.nil, rfl⟩
  | bin op l r ihl ihr =>
    unfold pSources at h
    obtain ⟨b1, h1, h⟩ := bind_ok h
    obtain ⟨b2, h2, h⟩ := bind_ok h
    simp only [Except.ok.injEq] at h
    subst h
    obtain ⟨xs, e1, e2, e3⟩ := ihl b b1 h1 fun x hx => hr x (by simp [reads, hx])
    obtain ⟨ys, f1, f2, f3⟩ := ihr b1 b2 h2 fun x hx => hr x (by simp [reads, hx])
    exact ⟨xs ++ ys, by simp [f1, e1], List.rel_append e2 f2, by simp [f3, e3]⟩
  | un op e ih =>
    unfold pSources at h
    split at h
    · cases h
    · obtain ⟨b1, h1, h⟩ := bind_ok h
      simp only [Except.ok.injEq] at h
      subst h
      exact ih b b1 h1 hr
  | other => cases h

theorem pAll_recorded (as : List (String × Expr × Expr)) (b b' : Body) (h : pAll as b = .ok b')
    (hp : ∀ a ∈ as, plain a.2.1 = true ∧ ∀ x ∈ reads a.2.2, plain x = true) :
    ∃ xs ys, b'.sources = b.sources ++ xs ∧ List.Forall₂ Recorded xs (as.flatMap assignmentReads) ∧
      b'.destinations = b.destinations ++ ys ∧ List.Forall₂ Recorded ys (as.map fun a => a.2.1) := by
  induction as generalizing b with
  | nil =>
    simp only [pAll, Except.ok.injEq] at h
    subst h
    exact ⟨[], [], by simp, List.Forall₂.nil, by simp, List.Forall₂.nil⟩
  | cons a as ih =>
    obtain ⟨op, lv, rv⟩ := a
    unfold pAll at h
    obtain ⟨b1, h1, h2⟩ := bind_ok h
    obtain ⟨xs, ys, e1, e2, e3, e4⟩ := ih b1 h2 fun a ha => hp a (by simp [ha])
    obtain ⟨hl, hr⟩ := hp (op, lv, rv) (by simp)
    unfold pAssignment at h1
    split at h1
    · cases h1
    · obtain ⟨n, g1, h1⟩ := bind_ok h1
      obtain ⟨o, g2, h1⟩ := bind_ok h1
      have hrec := place_recorded lv n o hl g1 g2
      obtain ⟨zs, f1, f2, f3⟩ := pSources_recorded rv _ b1 h1 hr
      refine ⟨(if op = "=" then [] else [(n, o)]) ++ zs ++ xs, (n, o) :: ys, ?_, ?_, ?_, ?_⟩
      · rw [e1, f1]
        by_cases he : op = "="
        · simp [he]
        · simp [he]
      · simp only [List.flatMap_cons]
        refine List.rel_append (List.rel_append ?_ f2) e2
        simp only
        split
        · exact List.Forall₂.nil
        · exact List.Forall₂.cons hrec List.Forall₂.nil
      · rw [e3, f3]
        by_cases he : op = "="
        · simp [he]
        · simp [he]
      · exact List.Forall₂.cons hrec e4

/-- C66, partial: in accepted code whose constants in references are decimal, the recorded sources are exactly the
references read (in order: targets of compound assignments and all references of right hand sides), the recorded
destinations are exactly the targets of assignments, with the subscripts from left to right. Missing: octal constants, see
`C66_negation_octal`. -/
theorem C66_references_partial (items : List Stmt) (r : Result) (h : processCode items = .ok r)
    (hp : ∀ a ∈ kernelAssigns items, plain a.2.1 = true ∧ ∀ x ∈ reads a.2.2, plain x = true) :
    List.Forall₂ Recorded r.st.body.sources ((kernelAssigns items).flatMap assignmentReads) ∧
    List.Forall₂ Recorded r.st.body.destinations ((kernelAssigns items).map fun a => a.2.1) := by
  obtain ⟨xs, ys, h1, h2, h3, h4⟩ := pAll_recorded _ _ _ (processCode_body items r h) hp
  simp only [List.nil_append] at h1 h3
  rw [h1, h3]
  exact ⟨h2, h4⟩

/-- `double b[M][N]; double s; for (…) s -= b[i+1][3];` -/
def refKernel : List Stmt :=
  [.decl "b" (.array (some (.id "M")) (.array (some (.id "N")) (.base ["double"]))), .decl "s" (.base ["double"]),
    .loop simpleHead (.assign "-=" (.id "s") (.ref (.ref (.id "b") (.bin "+" (.id "i") (.const ['1']))) (.const ['3'])))]

/-- The target of the compound assignment and the array element are recorded, the offsets in C order (the docstring of
`_get_offsets` says the opposite). -/
example : (processCode refKernel).toOption.map (fun r => (r.st.body.sources, r.st.body.destinations)) =
      some ([("s", none), ("b", some [.add (.sym "i") (.int 1), .int 3])], [("s", none)]) ∧
    ∀ a ∈ kernelAssigns refKernel, plain a.2.1 = true ∧ ∀ x ∈ reads a.2.2, plain x = true := by
  exact ⟨by decide +kernel, by decide +kernel⟩

/-- `double b[N]; double s; for (…) s = b[010];` -/
def octalKernel : List Stmt :=
  [.decl "b" (.array (some (.id "N")) (.base ["double"])), .decl "s" (.base ["double"]),
    .loop simpleHead (.assign "=" (.id "s") (.ref (.id "b") (.const "010".toList)))]

/-- C66 does not hold for octal constants: `b[010]` is element 8 in C and is recorded as element 10. -/
theorem C66_negation_octal : (processCode octalKernel).toOption.map (fun r => r.st.body.sources) =
      some [("b", some [.int 10])] ∧ ∀ env, eval env (.const "010".toList) = some 8 := by
  refine ⟨by decide +kernel, fun env => ?_⟩
  have : constVal "010".toList = some 8 := by decide +kernel
  show (constVal "010".toList).map (fun n : Nat => (n : Int)) = some 8
  rw [this]
  rfl

end Verif.Parse
