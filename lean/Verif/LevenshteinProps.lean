import Verif.Levenshtein
/-!
# C23: `levenshtein` is the edit distance
-/
namespace Verif.Levenshtein
open Verif

/-! ## Specification -/

/-- One insertion, deletion or substitution of a single character anywhere in the string. -/
inductive Edit1 : Str → Str → Prop where
  | ins (p s : Str) (x : Byte) : Edit1 (p ++ s) (p ++ x :: s)
  | del (p s : Str) (x : Byte) : Edit1 (p ++ x :: s) (p ++ s)
  | sub (p s : Str) (x y : Byte) : Edit1 (p ++ x :: s) (p ++ y :: s)

/-- `n` single-character edits turn `a` into `b`. -/
inductive Edits : Nat → Str → Str → Prop where
  | zero (a : Str) : Edits 0 a a
  | succ {n : Nat} {a b c : Str} : Edits n a b → Edit1 b c → Edits (n + 1) a c

/-- `d` is the least number of edits that turn `a` into `b`. -/
def IsDistance (a b : Str) (d : Nat) : Prop := Edits d a b ∧ ∀ n, Edits n a b → d ≤ n

/-! ## The recursive distance -/

def cost (x y : Byte) : Nat := if x = y then 0 else 1

def lev : Str → Str → Nat
  | [], b => b.length
  | a, [] => a.length
  | x :: a, y :: b => min (min (lev a (y :: b) + 1) (lev (x :: a) b + 1)) (lev a b + cost x y)

@[simp] theorem lev_nil_left (b : Str) : lev [] b = b.length := by cases b <;> simp [lev]
@[simp] theorem lev_nil_right (a : Str) : lev a [] = a.length := by cases a <;> simp [lev]
theorem lev_cons (x y : Byte) (a b : Str) :
    lev (x :: a) (y :: b) = min (min (lev a (y :: b) + 1) (lev (x :: a) b + 1)) (lev a b + cost x y) := by
  simp [lev]

theorem cost_le (x y : Byte) : cost x y ≤ 1 := by unfold cost; split <;> omega
theorem cost_self (x : Byte) : cost x x = 0 := by simp [cost]

theorem lev_del_right (a b : Str) (y : Byte) : lev a b ≤ lev a (y :: b) + 1 ∧ lev a (y :: b) ≤ lev a b + 1 := by
  induction a generalizing b y with
  | nil => simp; omega
  | cons x a ih =>
    have h := lev_cons x y a b
    have c := cost_le x y
    refine ⟨?_, by omega⟩
    have i1 := ih b y
    -- lev (x::a) b ≤ lev a b + 1
    have : lev (x :: a) b ≤ lev a b + 1 := by
      cases b with
      | nil => simp
      | cons z b => have := lev_cons x z a b; omega
    omega

theorem lev_del_left (a b : Str) (x : Byte) : lev a b ≤ lev (x :: a) b + 1 ∧ lev (x :: a) b ≤ lev a b + 1 := by
  induction b generalizing a x with
  | nil => simp; omega
  | cons y b ih =>
    have h := lev_cons x y a b
    have c := cost_le x y
    refine ⟨?_, by omega⟩
    have i1 := ih a x
    have := lev_del_right a b y
    omega

theorem lev_cons_self (x : Byte) (a b : Str) : lev (x :: a) (x :: b) = lev a b := by
  have h := lev_cons x x a b
  have := cost_self x
  have := lev_del_right a b x
  have := lev_del_left a b x
  omega

theorem lev_self (a : Str) : lev a a = 0 := by
  induction a with
  | nil => simp
  | cons x a ih => rw [lev_cons_self, ih]

theorem lev_edit1 {b c : Str} (h : Edit1 b c) (a : Str) : lev a c ≤ lev a b + 1 := by
  have key : ∀ (p s t : Str), (∀ a, lev a t ≤ lev a s + 1) → ∀ a, lev a (p ++ t) ≤ lev a (p ++ s) + 1 := by
    intro p s t hst
    induction p with
    | nil => exact hst
    | cons z p ih =>
      intro a
      induction a with
      | nil => have := ih []; simp at this ⊢; omega
      | cons w a iha =>
        simp only [List.cons_append] at iha ⊢
        have h1 := lev_cons w z a (p ++ t)
        have h2 := lev_cons w z a (p ++ s)
        have := ih (w :: a)
        have := ih a
        omega
  cases h with
  | ins p s x => exact key p _ _ (fun a => (lev_del_right a s x).2) a
  | del p s x => exact key p _ _ (fun a => (lev_del_right a s x).1) a
  | sub p s x y =>
    refine key p _ _ (fun a => ?_) a
    induction a with
    | nil => simp
    | cons w a iha =>
      have h1 := lev_cons w x a s
      have h2 := lev_cons w y a s
      have := lev_del_left a s w
      have := cost_le w x
      have := cost_le w y
      omega

theorem lev_le_edits {n : Nat} {a b : Str} (h : Edits n a b) : lev a b ≤ n := by
  induction h with
  | zero a => rw [lev_self]; omega
  | succ _ e ih => exact Nat.le_trans (lev_edit1 e _) (by omega)

/-! ## Edit scripts -/

theorem Edits.trans {n m : Nat} {a b c : Str} (h : Edits n a b) (g : Edits m b c) : Edits (n + m) a c := by
  induction g with
  | zero => exact h
  | succ _ e ih => exact .succ (ih h) e

theorem Edit1.cons {a b : Str} (x : Byte) (h : Edit1 a b) : Edit1 (x :: a) (x :: b) := by
  cases h with
  | ins p s y => exact .ins (x :: p) s y
  | del p s y => exact .del (x :: p) s y
  | sub p s y z => exact .sub (x :: p) s y z

theorem Edits.cons {n : Nat} {a b : Str} (x : Byte) (h : Edits n a b) : Edits n (x :: a) (x :: b) := by
  induction h with
  | zero => exact .zero _
  | succ _ e ih => exact .succ ih (e.cons x)

theorem Edit1.reverse {a b : Str} (h : Edit1 a b) : Edit1 a.reverse b.reverse := by
  cases h with
  | ins p s y => have := Edit1.ins s.reverse p.reverse y; simpa using this
  | del p s y => have := Edit1.del s.reverse p.reverse y; simpa using this
  | sub p s y z => have := Edit1.sub s.reverse p.reverse y z; simpa using this

theorem Edits.reverse {n : Nat} {a b : Str} (h : Edits n a b) : Edits n a.reverse b.reverse := by
  induction h with
  | zero => exact .zero _
  | succ _ e ih => exact .succ ih e.reverse

theorem edits_lev (a b : Str) : Edits (lev a b) a b := by
  induction a generalizing b with
  | nil =>
    induction b with
    | nil => simpa using Edits.zero []
    | cons y b ih =>
      have := ih
      simp at this ⊢
      exact .succ this (.ins [] b y)
  | cons x a iha =>
    induction b with
    | nil =>
      have h1 : Edits 1 (x :: a) a := .succ (.zero _) (.del [] a x)
      have := h1.trans (iha [])
      simp at this ⊢
      rw [Nat.add_comm]; exact this
    | cons y b ihb =>
      have hc := lev_cons x y a b
      by_cases h1 : lev (x :: a) (y :: b) = lev a (y :: b) + 1
      · rw [h1, Nat.add_comm]
        exact (Edits.succ (.zero _) (.del [] a x)).trans (iha (y :: b))
      · by_cases h2 : lev (x :: a) (y :: b) = lev (x :: a) b + 1
        · rw [h2]; exact .succ ihb (.ins [] b y)
        · have h3 : lev (x :: a) (y :: b) = lev a b + cost x y := by omega
          rw [h3]
          by_cases e : x = y
          · subst e; rw [cost_self]; exact (iha b).cons x
          · have : cost x y = 1 := by simp [cost, e]
            rw [this]
            exact .succ ((iha b).cons x) (.sub [] b x y)

theorem isDistance_lev (a b : Str) : IsDistance a b (lev a b) :=
  ⟨edits_lev a b, fun _ h => lev_le_edits h⟩

theorem IsDistance.unique {a b : Str} {d e : Nat} (h : IsDistance a b d) (g : IsDistance a b e) : d = e :=
  Nat.le_antisymm (h.2 _ g.1) (g.2 _ h.1)

theorem lev_reverse (a b : Str) : lev a.reverse b.reverse = lev a b := by
  apply Nat.le_antisymm
  · exact lev_le_edits (edits_lev a b).reverse
  · have := lev_le_edits (edits_lev a.reverse b.reverse).reverse
    simpa using this

theorem lev_append_left (p a b : Str) : lev (p ++ a) (p ++ b) = lev a b := by
  induction p with
  | nil => rfl
  | cons x p ih => rw [List.cons_append, List.cons_append, lev_cons_self, ih]

theorem lev_append_right (s a b : Str) : lev (a ++ s) (b ++ s) = lev a b := by
  rw [← lev_reverse, List.reverse_append, List.reverse_append, lev_append_left, lev_reverse]

/-! ## The dynamic program -/

/-- Distance of the prefixes of lengths `i` and `j`. -/
def D (a b : Str) (i j : Nat) : Nat := lev (a.take i).reverse (b.take j).reverse

theorem D_zero_left (a b : Str) (j : Nat) (h : j ≤ b.length) : D a b 0 j = j := by simp [D]; omega
theorem D_zero_right (a b : Str) (i : Nat) (h : i ≤ a.length) : D a b i 0 = i := by simp [D]; omega

theorem take_succ_rev (a : Str) (i : Nat) (h : i < a.length) : (a.take (i+1)).reverse = a[i] :: (a.take i).reverse := by
  rw [List.take_succ_eq_append_getElem h]; simp

theorem D_succ (a b : Str) (i j : Nat) (hi : i < a.length) (hj : j < b.length) :
    D a b (i+1) (j+1) = min (min (D a b i (j+1) + 1) (D a b (i+1) j + 1)) (D a b i j + cost a[i] b[j]) := by
  unfold D
  rw [take_succ_rev a i hi, take_succ_rev b j hj, lev_cons]

/-- The row of the table for the prefix `j` of `b` once the first `k` columns were moved to row `j + 1`. -/
def Row (a b : Str) (j k : Nat) (cache : List Nat) : Prop :=
  cache.length = a.length ∧ ∀ i, i < a.length → cache[i]? = some (if i < k then D a b (i+1) (j+1) else D a b (i+1) j)

theorem inner_ok (a b : Str) (j : Nat) (hj : j < b.length) (cache : List Nat) (h : Row a b j 0 cache) :
    ∃ c d r, inner a b[j] cache j = some (c, d, r) ∧ Row a b (j+1) 0 c ∧ (a ≠ [] → r = D a b a.length (j+1)) := by
  unfold inner
  obtain ⟨⟨c, d, r⟩, e, h1, h2, h3⟩ := forUp_inv
    (P := fun k (s : List Nat × Nat × Nat) => Row a b j k s.1 ∧ s.2.1 = D a b k j ∧
      s.2.2 = if k = 0 then j else D a b k (j+1))
    (lo := 0) (hi := a.length) (s := (cache, j, j))
    (body := fun ia (cache, d0, result) => do
      let x ← a[ia]?
      let d1 := if b[j] = x then d0 else d0 + 1
      let d0 ← cache[ia]?
      let result := min (min (result + 1) (d0 + 1)) d1
      some (cache.set ia result, d0, result))
    (Nat.zero_le _) ⟨h, by simp [D_zero_left a b j (by omega)], by simp⟩ (by
      rintro k ⟨c, d, r⟩ - hk ⟨⟨hl, hrow⟩, hd, hr⟩
      simp only at hl hrow hd hr
      have hck := hrow k hk
      simp only [Nat.lt_irrefl, if_false] at hck
      have hD := D_succ a b k j hk hj
      have hval : min (min (r + 1) (D a b (k+1) j + 1)) (if b[j] = a[k] then d else d + 1) = D a b (k+1) (j+1) := by
        have hcost : (if b[j] = a[k] then d else d + 1) = D a b k j + cost a[k] b[j] := by
          rw [hd]; unfold cost
          by_cases e : a[k] = b[j]
          · simp [e]
          · simp [e, Ne.symm e]
        rw [hcost, hD, hr]
        by_cases h0 : k = 0
        · subst h0
          have := D_zero_left a b j (by omega)
          have := D_zero_left a b (j+1) (by omega)
          have := cost_le a[0] b[j]
          simp only [if_true]
          omega
        · simp [h0]
      refine ⟨(c.set k (D a b (k+1) (j+1)), D a b (k+1) j, D a b (k+1) (j+1)), ?_, ⟨?_, ?_⟩, rfl, by simp⟩
      · simp only [List.getElem?_eq_getElem hk, hck, Option.bind_eq_bind, Option.bind_some]
        rw [hval]
      · simpa using hl
      · intro i hi
        simp only [List.getElem?_set]
        by_cases e : k = i
        · subst e; simp; omega
        · simp only [e, if_false]
          rw [hrow i hi]
          congr 1
          by_cases h1 : i < k
          · simp [h1, Nat.lt_succ_of_lt h1]
          · have : ¬ i < k + 1 := by omega
            simp [h1, this])
  refine ⟨c, d, r, e, ⟨h1.1, ?_⟩, ?_⟩
  · intro i hi
    have := h1.2 i hi
    simp [hi] at this ⊢
    exact this
  · intro ha
    have : a.length ≠ 0 := by simpa using ha
    simpa [this] using h3

theorem levNM_ok (a b : Str) : levNM a b = some (lev a b) := by
  unfold levNM
  by_cases ha : a.length = 0
  · have : a = [] := by simpa using ha
    subst this; simp
  by_cases hb : b.length = 0
  · have : b = [] := by simpa using hb
    subst this; simp; intro h; simp [h]
  simp only [ha, hb, if_false]
  obtain ⟨⟨c, r⟩, e, h1, h2⟩ := forUp_inv
    (P := fun j (s : List Nat × Nat) => Row a b j 0 s.1 ∧ (0 < j → s.2 = D a b a.length j))
    (lo := 0) (hi := b.length) (s := ((List.range a.length).map (· + 1), 0))
    (body := fun ib (cache, _) => do
      let code ← b[ib]?
      let (cache, _, result) ← inner a code cache ib
      some (cache, result))
    (Nat.zero_le _)
    ⟨⟨by simp, fun i hi => by simp [hi, D_zero_right a b (i+1) (by omega)]⟩, by simp⟩
    (by
      rintro k ⟨c, r⟩ - hk ⟨hrow, -⟩
      obtain ⟨c', d', r', e, hr1, hr2⟩ := inner_ok a b k hk c hrow
      refine ⟨(c', r'), ?_, hr1, fun _ => hr2 (by intro h; simp [h] at ha)⟩
      simp [List.getElem?_eq_getElem hk, e])
  rw [e]
  simp only [Option.bind_eq_bind, Option.bind_some]
  have h2' : r = D a b a.length b.length := h2 (by omega)
  rw [h2']
  unfold D
  rw [List.take_length, List.take_length, lev_reverse]

/-! ## Trimming -/

theorem commonPrefix_ok (a b : Str) : ∃ p, commonPrefix a b = some p ∧ p ≤ a.length ∧ p ≤ b.length ∧
    a.take p = b.take p := by
  unfold commonPrefix
  have hstep : ∀ k, k < a.length → k < b.length → a.take k = b.take k → a[k]? = b[k]? →
      a.take (k+1) = b.take (k+1) := by
    intro k h1 h2 h3 h4
    rw [List.take_add_one, List.take_add_one, h3, h4]
  rcases forBrk_inv
    (P := fun k (_ : Unit) => a.take k = b.take k)
    (Q := fun k => k ≤ a.length ∧ k ≤ b.length ∧ a.take k = b.take k)
    (lo := 0) (hi := min a.length b.length) (s := ())
    (body := fun i () => do
      let x ← a[i]?
      let y ← b[i]?
      some (if x ≠ y then .inr i else .inl ()))
    (Nat.zero_le _) (by simp) (by
      rintro k ⟨⟩ - hk hp
      have h1 : k < a.length := by omega
      have h2 : k < b.length := by omega
      by_cases e : a[k] = b[k]
      · left
        refine ⟨(), by simp [h1, h2, e], hstep k h1 h2 hp (by simp [h1, h2, e])⟩
      · right
        refine ⟨k, by simp [h1, h2, e], by omega, by omega, hp⟩) with ⟨⟨⟩, e, h⟩ | ⟨r, e, h⟩
  · rw [e]
    exact ⟨_, rfl, by omega, by omega, h⟩
  · rw [e]
    exact ⟨r, rfl, h⟩

theorem trimSuffix_ok (a b : Str) (i j : Nat) (hi : i ≤ a.length) (hj : j ≤ b.length)
    (hs : a.drop i = b.drop j) :
    ∃ i' j', trimSuffix a b i j = some (i', j') ∧ i' ≤ a.length ∧ j' ≤ b.length ∧ a.drop i' = b.drop j' := by
  induction i generalizing j with
  | zero => exact ⟨0, j, by unfold trimSuffix; rfl, by omega, hj, hs⟩
  | succ i ih =>
    cases j with
    | zero => exact ⟨i+1, 0, by unfold trimSuffix; rfl, hi, by omega, hs⟩
    | succ j =>
      have h1 : i < a.length := by omega
      have h2 : j < b.length := by omega
      unfold trimSuffix
      simp only [List.getElem?_eq_getElem h1, List.getElem?_eq_getElem h2, Option.bind_eq_bind, Option.bind_some]
      by_cases e : a[i] = b[j]
      · simp only [e, ne_eq, not_true, if_false]
        apply ih j (by omega) (by omega)
        rw [List.drop_eq_getElem_cons h1, List.drop_eq_getElem_cons h2, e, hs]
      · simp only [e, ne_eq, not_false_iff, if_true]
        exact ⟨i+1, j+1, rfl, hi, hj, hs⟩

theorem levenshtein_eq (a b : Str) : levenshtein a b = some (lev a b) := by
  unfold levenshtein
  obtain ⟨p, e, h1, h2, h3⟩ := commonPrefix_ok a b
  obtain ⟨i, j, e', h4, h5, h6⟩ := trimSuffix_ok (a.drop p) (b.drop p) _ _ (Nat.le_refl _) (Nat.le_refl _)
    (by rw [List.drop_length, List.drop_length])
  simp only [e, e', Option.bind_eq_bind, Option.bind_some]
  rw [levNM_ok]
  congr 1
  have ha : a = a.take p ++ ((a.drop p).take i ++ (a.drop p).drop i) := by
    rw [List.take_append_drop, List.take_append_drop]
  have hb : b = b.take p ++ ((b.drop p).take j ++ (b.drop p).drop j) := by
    rw [List.take_append_drop, List.take_append_drop]
  conv => rhs; rw [ha, hb]
  rw [h3, lev_append_left, h6, lev_append_right]

/-- **C23.** For all strings, `levenshtein(a, b)` returns (no out-of-bounds access happens) and its result is the least
number of single-character insertions, deletions and substitutions turning `a` into `b`. -/
theorem levenshtein_is_edit_distance (a b : Str) : ∃ d, levenshtein a b = some d ∧ IsDistance a b d :=
  ⟨lev a b, levenshtein_eq a b, isDistance_lev a b⟩

/-- **C23**, as a metric: zero exactly on equal strings, symmetric. -/
theorem levenshtein_zero_iff (a b : Str) : levenshtein a b = some 0 ↔ a = b := by
  rw [levenshtein_eq]
  constructor
  · intro h
    have h0 : lev a b = 0 := by simpa using h
    have := edits_lev a b
    rw [h0] at this
    cases this; rfl
  · rintro rfl; rw [lev_self]

example : levenshtein (str "kitten") (str "sitten") = some 1 := by decide +kernel
example : levenshtein (str "hello world") (str "Hello, World!") = some 4 := by decide +kernel
example : Edits 1 (str "ab") (str "axb") := .succ (.zero _) (.ins (str "a") (str "b") (ch 'x'))

end Verif.Levenshtein
