import Verif.Prelude
/-!
# Three-way comparison is a total order consistent with equality (C13)
-/
namespace Verif.Prelude
open Verif

variable {α : Type}

/-- Specification: `cmp` is a total order given as a three-way comparison (negative, zero, positive). -/
structure TotalOrder (cmp : α → α → Int) : Prop where
  eq_iff : ∀ a b, cmp a b = 0 ↔ a = b
  flip : ∀ a b, 0 < cmp a b ↔ cmp b a < 0
  trans : ∀ a b c, cmp a b < 0 → cmp b c < 0 → cmp a c < 0

/-- Specification: arrays are ordered by length first, then by the first differing item. -/
def ShortLex (cmp : α → α → Int) (a b : List α) : Prop :=
  a.length < b.length ∨ (a.length = b.length ∧
    ∃ p x y s t, a = p ++ x :: s ∧ b = p ++ y :: t ∧ cmp x y < 0)

theorem cmpPrim_total : TotalOrder cmpPrim where
  eq_iff a b := by unfold cmpPrim; split <;> (try split) <;> omega
  flip a b := by unfold cmpPrim; split <;> split <;> (try split) <;> (try split) <;> omega
  trans a b c := by unfold cmpPrim; split <;> split <;> split <;> (try split) <;> (try split) <;> (try split) <;> omega

/-- Lexicographic comparison of lists, used to describe what the loop computes. -/
def lex (cmp : α → α → Int) : List α → List α → Int
  | x :: xs, y :: ys => if cmp x y ≠ 0 then cmp x y else lex cmp xs ys
  | _, _ => 0

theorem items_length (mem : Nat → α) (v : View) : (v.items mem).length = v.len := by simp [View.items]

theorem items_drop (mem : Nat → α) (v : View) (i : Nat) (h : i < v.len) :
    (v.items mem).drop i = mem (v.ptr + i) :: (v.items mem).drop (i + 1) := by
  rw [List.drop_eq_getElem_cons (by rw [items_length]; exact h)]
  simp [View.items]

theorem cmpItems_eq (cmp : α → α → Int) (mem : Nat → α) (a b : View) (hl : a.len = b.len) (i : Nat) (hi : i ≤ a.len) :
    cmpItems cmp mem a b i 0 = some (lex cmp ((a.items mem).drop i) ((b.items mem).drop i)) ∧
    ∀ c, c ≠ 0 → cmpItems cmp mem a b i c = some c := by
  have nz : ∀ i c, c ≠ 0 → cmpItems cmp mem a b i c = some c := by
    intro i c hc
    unfold cmpItems
    rw [if_neg (by simp [hc])]
  refine ⟨?_, nz i⟩
  induction hn : a.len - i generalizing i with
  | zero =>
    unfold cmpItems
    rw [if_neg (by omega), List.drop_of_length_le (by rw [items_length]; omega),
      List.drop_of_length_le (by rw [items_length]; omega)]
    rfl
  | succ n ih =>
    unfold cmpItems
    rw [if_pos ⟨by omega, rfl⟩, if_pos (by omega), items_drop mem a i (by omega), items_drop mem b i (by omega)]
    simp only [lex]
    by_cases hc : cmp (mem (a.ptr + i)) (mem (b.ptr + i)) = 0
    · rw [hc, ih (i + 1) (by omega) (by omega)]; simp
    · rw [nz _ _ hc, if_pos hc]

/-- The comparison of arrays as a function of their items. -/
def cmpList (cmp : α → α → Int) (a b : List α) : Int :=
  if cmpPrim a.length b.length ≠ 0 then cmpPrim a.length b.length else lex cmp a b

theorem lex_self (cmp : α → α → Int) (h : TotalOrder cmp) (a : List α) : lex cmp a a = 0 := by
  induction a with
  | nil => rfl
  | cons x xs ih => simp [lex, (h.eq_iff x x).2 rfl, ih]

/-- **C13 (aliasing).** The shortcut for views with the same data pointer never changes the answer, and no item is read
out of bounds: the result only depends on the items shown. -/
theorem cmpArr_eq (cmp : α → α → Int) (h : TotalOrder cmp) (mem : Nat → α) (a b : View) :
    cmpArr cmp mem a b = some (cmpList cmp (a.items mem) (b.items mem)) := by
  unfold cmpArr cmpList
  simp only [items_length]
  by_cases hl : a.len = b.len
  · have h0 : cmpPrim a.len b.len = 0 := by rw [hl]; exact (cmpPrim_total.eq_iff _ _).2 rfl
    rw [h0]
    by_cases hp : a.ptr = b.ptr
    · have : a = b := by cases a; cases b; simp_all
      subst this
      simp [lex_self cmp h]
    · simp only [hp, decide_false, Bool.not_false, if_true]
      rw [(cmpItems_eq cmp mem a b hl 0 (Nat.zero_le _)).1]; simp
  · have h0 : cmpPrim a.len b.len ≠ 0 := fun e => hl (by have := (cmpPrim_total.eq_iff _ _).1 e; omega)
    rw [if_pos h0]
    by_cases hp : a.ptr = b.ptr
    · simp [hp]
    · simp only [hp, decide_false, Bool.not_false, if_true]
      unfold cmpItems
      rw [if_neg (by simp [h0])]

theorem lex_neg_iff (cmp : α → α → Int) (h : TotalOrder cmp) (a b : List α) :
    lex cmp a b < 0 ↔ ∃ p x y s t, a = p ++ x :: s ∧ b = p ++ y :: t ∧ cmp x y < 0 := by
  induction a generalizing b with
  | nil => simp [lex]
  | cons x xs ih =>
    cases b with
    | nil => simp [lex]
    | cons y ys =>
      simp only [lex]
      by_cases hc : cmp x y = 0
      · have := (h.eq_iff x y).1 hc
        subst this
        rw [if_neg (by simpa using hc), ih]
        constructor
        · rintro ⟨p, u, v, s, t, e1, e2, hlt⟩
          exact ⟨x :: p, u, v, s, t, by simp [e1], by simp [e2], hlt⟩
        · rintro ⟨p, u, v, s, t, e1, e2, hlt⟩
          cases p with
          | nil =>
            simp only [List.nil_append, List.cons.injEq] at e1 e2
            obtain ⟨rfl, -⟩ := e1
            obtain ⟨rfl, -⟩ := e2
            omega
          | cons q p =>
            simp only [List.cons_append, List.cons.injEq] at e1 e2
            exact ⟨p, u, v, s, t, e1.2, e2.2, hlt⟩
      · rw [if_pos hc]
        constructor
        · intro hlt; exact ⟨[], x, y, xs, ys, rfl, rfl, hlt⟩
        · rintro ⟨p, u, v, s, t, e1, e2, hlt⟩
          cases p with
          | nil =>
            simp only [List.nil_append, List.cons.injEq] at e1 e2
            rw [e1.1, e2.1]; exact hlt
          | cons q p =>
            simp only [List.cons_append, List.cons.injEq] at e1 e2
            exact absurd ((h.eq_iff x y).2 (by rw [e1.1, e2.1])) hc

theorem lex_zero_iff (cmp : α → α → Int) (h : TotalOrder cmp) (a b : List α) (hl : a.length = b.length) :
    lex cmp a b = 0 ↔ a = b := by
  induction a generalizing b with
  | nil => cases b <;> simp_all [lex]
  | cons x xs ih =>
    cases b with
    | nil => simp at hl
    | cons y ys =>
      simp only [lex]
      by_cases hc : cmp x y = 0
      · rw [if_neg (by simpa using hc), ih ys (by simpa using hl)]
        simp [(h.eq_iff x y).1 hc]
      · rw [if_pos hc]
        constructor
        · intro e; exact absurd e hc
        · intro e; cases e; exact absurd ((h.eq_iff x x).2 rfl) hc

theorem lex_flip (cmp : α → α → Int) (h : TotalOrder cmp) (a b : List α) : 0 < lex cmp a b ↔ lex cmp b a < 0 := by
  induction a generalizing b with
  | nil => cases b <;> simp [lex]
  | cons x xs ih =>
    cases b with
    | nil => simp [lex]
    | cons y ys =>
      simp only [lex]
      by_cases hc : cmp x y = 0
      · have := (h.eq_iff x y).1 hc
        subst this
        simp [hc, ih]
      · rw [if_pos hc, if_pos (fun e => hc ((h.eq_iff _ _).2 ((h.eq_iff _ _).1 e).symm))]
        exact h.flip x y

theorem lex_trans (cmp : α → α → Int) (h : TotalOrder cmp) (a b c : List α) (h1 : lex cmp a b < 0) (h2 : lex cmp b c < 0) :
    lex cmp a c < 0 := by
  induction a generalizing b c with
  | nil => simp [lex] at h1
  | cons x xs ih =>
    cases b with
    | nil => simp [lex] at h1
    | cons y ys =>
      cases c with
      | nil => simp [lex] at h2
      | cons z zs =>
        simp only [lex] at h1 h2 ⊢
        by_cases hxy : cmp x y = 0
        · have := (h.eq_iff x y).1 hxy
          subst this
          rw [if_neg (by simpa using hxy)] at h1
          by_cases hyz : cmp x z = 0
          · rw [if_neg (by simpa using hyz)] at h2 ⊢
            exact ih _ _ h1 h2
          · rw [if_pos hyz] at h2 ⊢; exact h2
        · rw [if_pos hxy] at h1
          by_cases hyz : cmp y z = 0
          · have := (h.eq_iff y z).1 hyz
            subst this
            rw [if_pos hxy]; exact h1
          · rw [if_pos hyz] at h2
            have := h.trans _ _ _ h1 h2
            rw [if_pos (by omega)]; exact this

theorem cmpList_neg_iff (cmp : α → α → Int) (h : TotalOrder cmp) (a b : List α) : cmpList cmp a b < 0 ↔ ShortLex cmp a b := by
  unfold cmpList ShortLex
  rw [← lex_neg_iff cmp h]
  unfold cmpPrim
  by_cases h1 : (a.length : Int) < b.length
  · simp only [h1, if_true]; simp; omega
  · by_cases h2 : (a.length : Int) > b.length
    · simp only [h1, h2, if_true, if_false]; simp; omega
    · simp only [h1, h2, if_false]; simp; omega

/-- **C13.** On arrays of items with a total order, `<>` is a total order: it is zero exactly on equal arrays, negative
exactly when the left array comes first by length and then by first difference, antisymmetric and transitive. -/
theorem cmpArr_total (cmp : α → α → Int) (h : TotalOrder cmp) (mem : Nat → α) :
    (∀ a b : View, ∃ r, cmpArr cmp mem a b = some r ∧
      (r = 0 ↔ a.items mem = b.items mem) ∧
      (r < 0 ↔ ShortLex cmp (a.items mem) (b.items mem)) ∧
      (0 < r ↔ ShortLex cmp (b.items mem) (a.items mem))) ∧
    TotalOrder (cmpList cmp) := by
  have tot : TotalOrder (cmpList cmp) := by
    constructor
    · intro a b
      unfold cmpList
      by_cases hl : a.length = b.length
      · have h0 : cmpPrim a.length b.length = 0 := by rw [hl]; exact (cmpPrim_total.eq_iff _ _).2 rfl
        rw [h0, if_neg (by simp), lex_zero_iff cmp h a b hl]
      · have h0 : cmpPrim a.length b.length ≠ 0 := fun e => hl (by have := (cmpPrim_total.eq_iff _ _).1 e; omega)
        rw [if_pos h0]
        exact ⟨fun e => absurd e h0, fun e => absurd (by rw [e]) hl⟩
    · intro a b
      unfold cmpList
      by_cases hl : a.length = b.length
      · have h0 : cmpPrim a.length b.length = 0 := by rw [hl]; exact (cmpPrim_total.eq_iff _ _).2 rfl
        have h1 : cmpPrim b.length a.length = 0 := by rw [hl]; exact (cmpPrim_total.eq_iff _ _).2 rfl
        rw [h0, h1, if_neg (by simp), if_neg (by simp)]
        exact lex_flip cmp h a b
      · have h0 : cmpPrim a.length b.length ≠ 0 := fun e => hl (by have := (cmpPrim_total.eq_iff _ _).1 e; omega)
        have h1 : cmpPrim b.length a.length ≠ 0 := fun e => hl (by have := (cmpPrim_total.eq_iff _ _).1 e; omega)
        rw [if_pos h0, if_pos h1]
        exact cmpPrim_total.flip _ _
    · intro a b c
      rw [cmpList_neg_iff cmp h, cmpList_neg_iff cmp h, cmpList_neg_iff cmp h]
      unfold ShortLex
      rw [← lex_neg_iff cmp h, ← lex_neg_iff cmp h, ← lex_neg_iff cmp h]
      rintro (h1 | ⟨h1, h1'⟩) (h2 | ⟨h2, h2'⟩)
      · left; omega
      · left; omega
      · left; omega
      · right; exact ⟨by omega, lex_trans cmp h a b c h1' h2'⟩
  refine ⟨fun a b => ⟨_, cmpArr_eq cmp h mem a b, tot.eq_iff _ _, cmpList_neg_iff cmp h _ _, ?_⟩, tot⟩
  rw [tot.flip, cmpList_neg_iff cmp h]

/-! ### Structs -/

section
variable {ι : Type} {V : ι → Type} (cmpF : (i : ι) → V i → V i → Int) (hF : ∀ i, TotalOrder (cmpF i))
  (triv : ι → Bool) (a b c : (i : ι) → V i)

theorem go_append (l m : List ι) (k : Int) :
    cmpStruct.go cmpF a b l (cmpStruct.go cmpF a b m k) = cmpStruct.go cmpF a b (l ++ m) k := by
  induction l with
  | nil => rfl
  | cons i is ih => simp only [cmpStruct.go, List.cons_append, ih]

include hF

theorem go_zero (l : List ι) : cmpStruct.go cmpF a b l 0 = 0 ↔ ∀ i ∈ l, a i = b i := by
  induction l with
  | nil => simp [cmpStruct.go]
  | cons i is ih =>
    simp only [cmpStruct.go, List.mem_cons, forall_eq_or_imp]
    by_cases h : cmpF i (a i) (b i) = 0
    · rw [if_neg (by simpa using h), ih]; simp [((hF i).eq_iff _ _).1 h]
    · rw [if_pos h]
      exact ⟨fun e => absurd e h, fun e => absurd (((hF i).eq_iff _ _).2 e.1) h⟩

theorem go_flip (l : List ι) : 0 < cmpStruct.go cmpF a b l 0 ↔ cmpStruct.go cmpF b a l 0 < 0 := by
  induction l with
  | nil => simp [cmpStruct.go]
  | cons i is ih =>
    simp only [cmpStruct.go]
    by_cases h : a i = b i
    · have h1 := ((hF i).eq_iff _ _).2 h
      have h2 := ((hF i).eq_iff _ _).2 h.symm
      rw [if_neg (by simpa using h1), if_neg (by simpa using h2), ih]
    · rw [if_pos (fun e => h (((hF i).eq_iff _ _).1 e)), if_pos (fun e => h (((hF i).eq_iff _ _).1 e).symm)]
      exact (hF i).flip _ _

theorem go_trans (l : List ι) (h1 : cmpStruct.go cmpF a b l 0 < 0) (h2 : cmpStruct.go cmpF b c l 0 < 0) :
    cmpStruct.go cmpF a c l 0 < 0 := by
  induction l with
  | nil => simp [cmpStruct.go] at h1
  | cons i is ih =>
    simp only [cmpStruct.go] at h1 h2 ⊢
    by_cases hab : a i = b i
    · rw [if_neg (by simpa using ((hF i).eq_iff _ _).2 hab)] at h1
      by_cases hbc : b i = c i
      · rw [if_neg (by simpa using ((hF i).eq_iff _ _).2 hbc)] at h2
        rw [if_neg (by simpa using ((hF i).eq_iff _ _).2 (hab.trans hbc))]
        exact ih h1 h2
      · have hne : cmpF i (b i) (c i) ≠ 0 := fun e => hbc (((hF i).eq_iff _ _).1 e)
        rw [if_pos hne] at h2
        rw [hab, if_pos hne]; exact h2
    · have hne : cmpF i (a i) (b i) ≠ 0 := fun e => hab (((hF i).eq_iff _ _).1 e)
      rw [if_pos hne] at h1
      by_cases hbc : b i = c i
      · rw [← hbc, if_pos hne]; exact h1
      · rw [if_pos (fun e => hbc (((hF i).eq_iff _ _).1 e))] at h2
        have := (hF i).trans _ _ _ h1 h2
        rw [if_pos (by omega)]; exact this

/-- **C13 (structs).** The comparison of structs, plain fields first and arrays afterwards, is a total order consistent
with equality of all fields. -/
theorem cmpStruct_total (fields : List ι) (hall : ∀ i, i ∈ fields) : TotalOrder (cmpStruct cmpF triv fields) := by
  have e : ∀ a b, cmpStruct cmpF triv fields a b =
      cmpStruct.go cmpF a b (fields.filter triv ++ fields.filter fun i => !triv i) 0 := by
    intro a b; unfold cmpStruct; rw [go_append]
  constructor
  · intro a b
    rw [e, go_zero cmpF hF]
    constructor
    · intro h
      funext i
      apply h
      rw [List.mem_append, List.mem_filter, List.mem_filter]
      by_cases ht : triv i = true
      · exact Or.inl ⟨hall i, ht⟩
      · exact Or.inr ⟨hall i, by simpa using ht⟩
    · intro h i _; rw [h]
  · intro a b; rw [e, e]; exact go_flip cmpF hF a b _
  · intro a b c h1 h2; rw [e] at h1 h2 ⊢; exact go_trans cmpF hF a b c _ h1 h2

end

/-- Arrays of arrays of integers are totally ordered too: the theorem composes. -/
example : TotalOrder (cmpList (cmpList cmpPrim)) :=
  (cmpArr_total _ (cmpArr_total _ cmpPrim_total (fun _ => 0)).2 (fun _ => [])).2

example : cmpList cmpPrim [9] [1, 2] = -1 ∧ cmpList cmpPrim [1, 3] [1, 2] = 1 := by decide +kernel

end Verif.Prelude
