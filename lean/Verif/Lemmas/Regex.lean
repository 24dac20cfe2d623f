import Verif.Model.Regex

/-! Lemmas about patterns. -/

namespace Verif.Regex

open Verif.Text

theorem bind_head {α β : Type} {a : Pat α} {f : α → Pat β} {s r : List Char} {x : α} {y : β × List Char}
    (h : (a s).head? = some (x, r)) (h' : (f x r).head? = some y) : (bind a f s).head? = some y := by
  unfold bind
  cases ha : a s with
  | nil => rw [ha] at h; cases h
  | cons z zs =>
    rw [ha] at h
    simp only [List.head?_cons, Option.some.injEq] at h
    subst h
    rw [List.flatMap_cons, List.head?_append, h']
    rfl

theorem bind_nil {α β : Type} {a : Pat α} {f : α → Pat β} {s : List Char} (h : ∀ x r, (x, r) ∈ a s → f x r = []) : bind a f s = [] := by
  unfold bind
  rw [List.flatMap_eq_nil_iff]
  exact fun x hx => h x.1 x.2 hx

theorem bind_mem {α β : Type} {a : Pat α} {f : α → Pat β} {s : List Char} {y : β × List Char} (h : y ∈ bind a f s) :
    ∃ x r, (x, r) ∈ a s ∧ y ∈ f x r := by
  obtain ⟨x, hx, hy⟩ := List.mem_flatMap.1 h
  exact ⟨x.1, x.2, hx, hy⟩

theorem bind_cons {α β : Type} {a : Pat α} {f : α → Pat β} {s r : List Char} {x : α} {l : List (α × List Char)}
    (h : a s = (x, r) :: l) : bind a f s = f x r ++ l.flatMap fun x => f x.1 x.2 := by
  rw [bind, h, List.flatMap_cons]

theorem bind_group {α β : Type} (a : Pat α) (f : Option α → Pat β) (s : List Char) :
    bind (group a) f s = bind a (fun x => f (some x)) s ++ f none s := by
  simp [bind, group, List.flatMap_append, List.flatMap_map]

theorem bind_opt {β : Type} (a : Pat (List Char)) (f : List Char → Pat β) (s : List Char) :
    bind (opt a) f s = bind a f s ++ f [] s := by
  simp [bind, opt, List.flatMap_append]

theorem ret_head {α : Type} (x : α) (s : List Char) : (ret x s).head? = some (x, s) := rfl

theorem cat_head {a b : Pat (List Char)} {s r t x y : List Char} (h : (a s).head? = some (x, r)) (h' : (b r).head? = some (y, t)) :
    (cat a b s).head? = some (x ++ y, t) := bind_head h (bind_head h' (ret_head _ _))

theorem cat_mem {a b : Pat (List Char)} {s : List Char} {z t : List Char} (h : (z, t) ∈ cat a b s) :
    ∃ x r y, (x, r) ∈ a s ∧ (y, t) ∈ b r ∧ z = x ++ y := by
  obtain ⟨x, r, h1, h2⟩ := bind_mem h
  obtain ⟨y, t', h3, h4⟩ := bind_mem h2
  simp only [ret, List.mem_singleton, Prod.mk.injEq] at h4
  obtain ⟨rfl, rfl⟩ := h4
  exact ⟨x, r, y, h1, h3, rfl⟩

theorem cat_nil_left {a b : Pat (List Char)} {s : List Char} (h : a s = []) : cat a b s = [] := by
  simp [cat, bind, h]

theorem chr_cons {p : Char → Bool} {c : Char} {s : List Char} (h : p c = true) : chr p (c :: s) = [([c], s)] := by simp [chr, h]

theorem chr_nil {p : Char → Bool} {s : List Char} (h : ∀ c ∈ s.head?, p c = false) : chr p s = [] := by
  cases s with
  | nil => rfl
  | cons c cs => simp [chr, h c (by simp)]

theorem chr_mem {p : Char → Bool} {s x r : List Char} (h : (x, r) ∈ chr p s) : ∃ c, x = [c] ∧ s = c :: r ∧ p c = true := by
  cases s with
  | nil => cases h
  | cons c cs =>
    simp only [chr] at h
    split at h
    · simp only [List.mem_singleton, Prod.mk.injEq] at h
      obtain ⟨rfl, rfl⟩ := h
      exact ⟨c, rfl, rfl, by assumption⟩
    · cases h

theorem star_head {p : Char → Bool} (w rest : List Char) (h : ∀ c ∈ w, p c = true) (hr : ∀ c ∈ rest.head?, p c = false) :
    (star p (w ++ rest)).head? = some (w, rest) := by
  induction w with
  | nil =>
    cases rest with
    | nil => rfl
    | cons c cs => simp [star, hr c (by simp)]
  | cons c w ih =>
    have := ih fun x hx => h x (by simp [hx])
    simp only [List.cons_append, star, h c (by simp), if_true, List.head?_append, List.head?_map, this]
    rfl

theorem star_none {p : Char → Bool} (s : List Char) (hr : ∀ c ∈ s.head?, p c = false) : star p s = [([], s)] := by
  cases s with
  | nil => rfl
  | cons c cs => simp [star, hr c (by simp)]

/-- The longest match and the next one. -/
theorem star_two {p : Char → Bool} (w : List Char) (d : Char) (rest : List Char) (h : ∀ c ∈ w, p c = true) (hd : p d = true)
    (hr : ∀ c ∈ rest.head?, p c = false) : ∃ l, star p (w ++ d :: rest) = (w ++ [d], rest) :: (w, d :: rest) :: l := by
  induction w with
  | nil => exact ⟨[], by simp [star, hd, star_none rest hr]⟩
  | cons c w ih =>
    obtain ⟨l, e⟩ := ih fun x hx => h x (by simp [hx])
    exact ⟨l.map (fun x => (c :: x.1, x.2)) ++ [([], c :: (w ++ d :: rest))], by
      simp [star, h c (by simp), e]⟩

theorem star_mem {p : Char → Bool} {s x r : List Char} (h : (x, r) ∈ star p s) : s = x ++ r ∧ ∀ c ∈ x, p c = true := by
  induction s generalizing x with
  | nil =>
    simp only [star, List.mem_singleton, Prod.mk.injEq] at h
    simp [h]
  | cons c cs ih =>
    simp only [star] at h
    split at h
    · rename_i hc
      rcases List.mem_append.1 h with h | h
      · obtain ⟨⟨y, t⟩, hy, e⟩ := List.mem_map.1 h
        simp only [Prod.mk.injEq] at e
        obtain ⟨rfl, rfl⟩ := e
        obtain ⟨e, ha⟩ := ih hy
        exact ⟨by rw [e]; rfl, by simpa [hc] using ha⟩
      · simp only [List.mem_singleton, Prod.mk.injEq] at h
        simp [h]
    · simp only [List.mem_singleton, Prod.mk.injEq] at h
      simp [h]

theorem plus_head {p : Char → Bool} (w rest : List Char) (hne : w ≠ []) (h : ∀ c ∈ w, p c = true) (hr : ∀ c ∈ rest.head?, p c = false) :
    (plus p (w ++ rest)).head? = some (w, rest) := by
  cases w with
  | nil => exact absurd rfl hne
  | cons c w =>
    exact cat_head (x := [c]) (by rw [List.cons_append, chr_cons (h c (by simp))]; rfl) (star_head w rest (fun x hx => h x (by simp [hx])) hr)

theorem plus_nil {p : Char → Bool} {s : List Char} (h : ∀ c ∈ s.head?, p c = false) : plus p s = [] := cat_nil_left (chr_nil h)

theorem plus_mem {p : Char → Bool} {s x r : List Char} (h : (x, r) ∈ plus p s) : s = x ++ r ∧ (∀ c ∈ x, p c = true) ∧ x ≠ [] := by
  obtain ⟨u, t, v, h1, h2, rfl⟩ := cat_mem h
  obtain ⟨c, rfl, rfl, hc⟩ := chr_mem h1
  obtain ⟨rfl, ha⟩ := star_mem h2
  exact ⟨by simp, by simpa [hc] using ha, by simp⟩

theorem opt_mem {a : Pat (List Char)} {s x r : List Char} (h : (x, r) ∈ opt a s) : (x, r) ∈ a s ∨ (x = [] ∧ r = s) := by
  rcases List.mem_append.1 h with h | h
  · exact .inl h
  · simp only [List.mem_singleton, Prod.mk.injEq] at h
    exact .inr h

theorem opt_head {a : Pat (List Char)} {s x r : List Char} (h : (a s).head? = some (x, r)) : (opt a s).head? = some (x, r) := by
  simp [opt, List.head?_append, h]

theorem opt_none {a : Pat (List Char)} {s : List Char} (h : a s = []) : opt a s = [([], s)] := by simp [opt, h]

theorem group_head {α : Type} {a : Pat α} {s r : List Char} {x : α} (h : (a s).head? = some (x, r)) :
    (group a s).head? = some (some x, r) := by simp [group, List.head?_append, h]

theorem group_none {α : Type} {a : Pat α} {s : List Char} (h : a s = []) : group a s = [(none, s)] := by simp [group, h]

theorem many_none {a : Pat (List Char)} {s : List Char} (n : Nat) (h : a s = []) : many a n s = [([], s)] := by
  cases n with
  | zero => rfl
  | succ n => simp [many, h]

theorem many_head {a : Pat (List Char)} {s r t x y : List Char} (n : Nat) (h : (a s).head? = some (x, r)) (h' : (many a n r).head? = some (y, t)) :
    (many a (n + 1) s).head? = some (x ++ y, t) := by
  cases ha : a s with
  | nil => rw [ha] at h; cases h
  | cons z zs =>
    rw [ha] at h
    simp only [List.head?_cons, Option.some.injEq] at h
    subst h
    simp [many, ha, List.head?_append, h']

theorem first_of {α : Type} {a : Pat α} {s r : List Char} {x : α} (h : (a s).head? = some (x, r)) : first a s = some x := by
  simp [first, h]

end Verif.Regex
