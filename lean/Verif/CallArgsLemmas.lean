import Verif.CallArgsSpec
/-!
# Lemmas: the loop of `reorderByArgIDs` computes the specified binding
-/
namespace Verif.CallArgs
open Spec

theorem find_eq (args : List Arg) (n : String) : find (args.map (·.name)) n = named args n := by
  induction args with
  | nil => rfl
  | cons a as ih =>
    simp only [List.map_cons, find, named, List.findIdx?_cons]
    by_cases h : a.name = n
    · simp [h]
    · rw [if_neg h, ih]; simp [h, named]

theorem named_some {args : List Arg} {n : String} {j : Nat} (h : named args n = some j) :
    ∃ a, args[j]? = some a ∧ a.name = n := by
  unfold named at h
  rw [List.findIdx?_eq_some_iff_getElem] at h
  obtain ⟨hj, hp, -⟩ := h
  exact ⟨args[j], List.getElem?_eq_getElem hj, by simpa using hp⟩

theorem named_none {args : List Arg} {n : String} (h : named args n = none) : ∀ a ∈ args, a.name ≠ n := by
  unfold named at h
  rw [List.findIdx?_eq_none_iff] at h
  intro a ha e
  simpa [e] using h a ha

/-- Positional arguments at or after `off`. -/
def posFrom (names : List String) (off : Nat) : List Nat :=
  ((List.range names.length).filter fun j => names[j]? = some "").filter fun j => off ≤ j

theorem posFrom_zero (args : List Arg) : posFrom (args.map (·.name)) 0 = positional args := by
  unfold posFrom positional
  rw [List.filter_eq_self.2 (by simp)]
  rw [List.length_map]
  apply List.filter_congr
  intro j hj
  rw [List.mem_range] at hj
  simp only [List.getElem?_map, isPositional, List.getElem?_eq_getElem hj, Option.map_some, Option.some.injEq]
  by_cases h : args[j].name = "" <;> simp [h]

theorem posFrom_mem {names : List String} {off j : Nat} :
    j ∈ posFrom names off ↔ off ≤ j ∧ names[j]? = some "" := by
  unfold posFrom
  simp only [List.mem_filter, List.mem_range, decide_eq_true_eq]
  constructor
  · rintro ⟨⟨-, b⟩, c⟩; exact ⟨c, b⟩
  · rintro ⟨c, b⟩
    refine ⟨⟨?_, b⟩, c⟩
    rcases Nat.lt_or_ge j names.length with h | h
    · exact h
    · rw [List.getElem?_eq_none h] at b; cases b

theorem posFrom_sorted (names : List String) (off : Nat) : (posFrom names off).Pairwise (· < ·) := by
  unfold posFrom
  exact ((List.pairwise_lt_range).filter _).filter _

theorem posFrom_end {names : List String} {off : Nat} (h : names.length ≤ off) : posFrom names off = [] := by
  rw [List.eq_nil_iff_forall_not_mem]
  intro j hj
  rw [posFrom_mem] at hj
  rw [List.getElem?_eq_none (by omega)] at hj
  cases hj.2

/-- Two increasing lists with the same members are equal. -/
theorem sorted_ext : ∀ (a b : List Nat), a.Pairwise (· < ·) → b.Pairwise (· < ·) → (∀ j, j ∈ a ↔ j ∈ b) → a = b
  | [], [], _, _, _ => rfl
  | [], y :: _, _, _, h => by have := (h y).2 (by simp); cases this
  | x :: _, [], _, _, h => by have := (h x).1 (by simp); cases this
  | x :: a, y :: b, ha, hb, h => by
    rw [List.pairwise_cons] at ha hb
    have hxy : x = y := by
      rcases List.mem_cons.1 ((h x).1 (by simp)) with e | e
      · exact e
      · rcases List.mem_cons.1 ((h y).2 (by simp)) with e' | e'
        · exact e'.symm
        · have := hb.1 x e; have := ha.1 y e'; omega
    subst hxy
    congr 1
    apply sorted_ext a b ha.2 hb.2
    intro j
    constructor
    · intro hj
      rcases List.mem_cons.1 ((h j).1 (by simp [hj])) with e | e
      · have := ha.1 j hj; omega
      · exact e
    · intro hj
      rcases List.mem_cons.1 ((h j).2 (by simp [hj])) with e | e
      · have := hb.1 j hj; omega
      · exact e

theorem posFrom_step_miss {names : List String} {off : Nat} (h : names[off]? ≠ some "") :
    posFrom names off = posFrom names (off + 1) := by
  apply sorted_ext _ _ (posFrom_sorted _ _) (posFrom_sorted _ _)
  intro j
  rw [posFrom_mem, posFrom_mem]
  constructor
  · rintro ⟨a, b⟩
    refine ⟨?_, b⟩
    rcases Nat.lt_or_ge off j with c | c
    · exact c
    · have : j = off := by omega
      subst this; exact absurd b h
  · rintro ⟨a, b⟩; exact ⟨by omega, b⟩

theorem posFrom_step_hit {names : List String} {off : Nat} (h : names[off]? = some "") :
    posFrom names off = off :: posFrom names (off + 1) := by
  apply sorted_ext _ _ (posFrom_sorted _ _)
  · rw [List.pairwise_cons]
    refine ⟨?_, posFrom_sorted _ _⟩
    intro j hj; rw [posFrom_mem] at hj; omega
  · intro j
    rw [List.mem_cons, posFrom_mem, posFrom_mem]
    constructor
    · rintro ⟨a, b⟩
      rcases Nat.lt_or_ge off j with c | c
      · exact .inr ⟨c, b⟩
      · exact .inl (by omega)
    · rintro (e | ⟨a, b⟩)
      · subst e; exact ⟨Nat.le_refl _, h⟩
      · exact ⟨by omega, b⟩

theorem scan_spec (names : List String) : ∀ (k off : Nat), names.length - off = k →
    (scan (names.drop off) off).1 = (posFrom names off).head? ∧
    posFrom names (scan (names.drop off) off).2 = (posFrom names off).tail := by
  intro k
  induction k with
  | zero =>
    intro off hk
    rw [List.drop_eq_nil_of_le (by omega)]
    simp [scan, posFrom_end (names := names) (off := off) (by omega)]
  | succ k ih =>
    intro off hk
    have hlt : off < names.length := by omega
    rw [List.drop_eq_getElem_cons hlt, scan]
    by_cases h : names[off] = ""
    · rw [if_pos h]
      have : names[off]? = some "" := by rw [List.getElem?_eq_getElem hlt, h]
      rw [posFrom_step_hit this]
      simp
    · rw [if_neg h]
      have : names[off]? ≠ some "" := by rw [List.getElem?_eq_getElem hlt]; simpa using h
      rw [posFrom_step_miss this]
      exact ih (off + 1) (by omega)

theorem filter_one {α : Type} (f : α → Bool) (a : α) : [a].filter f = if f a then [a] else [] := by
  rw [List.filter_cons]; simp

/-! ## Prefixes -/

theorem rank_append (V W : List Param) (args : List Arg) {i : Nat} (h : i ≤ V.length) :
    rank (V ++ W) args i = rank V args i := by
  unfold rank
  rw [List.take_append_of_le_length h]

theorem expect_append (V W : List Param) (args : List Arg) (nu : Nat) {i : Nat} (h : i < V.length) :
    expect (V ++ W) args nu i = expect V args nu i := by
  unfold expect
  rw [List.getElem?_append_left h, rank_append _ _ _ (Nat.le_of_lt h)]

theorem expect_past (V : List Param) (args : List Arg) (nu : Nat) {i : Nat} (h : V.length ≤ i) :
    expect V args nu i = none := by
  unfold expect
  rw [List.getElem?_eq_none h]

/-- The map of all parameters. -/
def fullMap (V : List Param) (args : List Arg) (nu : Nat) : List (Option Nat) :=
  (List.range V.length).map (expect V args nu)

theorem fullMap_snoc (V : List Param) (p : Param) (args : List Arg) (nu : Nat) :
    fullMap (V ++ [p]) args nu = fullMap V args nu ++ [expect (V ++ [p]) args nu V.length] := by
  unfold fullMap
  rw [List.length_append, List.length_singleton, List.range_succ, List.map_append]
  congr 1
  apply List.map_congr_left
  intro i hi
  exact expect_append _ _ _ _ (by simpa using hi)

/-- The indices claimed by name. -/
def claims (V : List Param) (args : List Arg) : List Nat := V.filterMap fun p => named args p.name

/-- Optional parameters that got something. -/
def boundOpt (V : List Param) (args : List Arg) (nu : Nat) : Nat :=
  ((List.range V.length).filter fun i =>
    (match V[i]? with | some p => !Required p | none => false) && (expect V args nu i).isSome).length

theorem boundOpt_snoc (V : List Param) (p : Param) (args : List Arg) (nu : Nat) :
    boundOpt (V ++ [p]) args nu = boundOpt V args nu +
      (if !Required p && (expect (V ++ [p]) args nu V.length).isSome then 1 else 0) := by
  unfold boundOpt
  rw [List.length_append, List.length_singleton, List.range_succ, List.filter_append, List.length_append]
  congr 1
  · congr 1
    apply List.filter_congr
    intro i hi
    have hi : i < V.length := by simpa using hi
    rw [expect_append _ _ _ _ hi, List.getElem?_append_left hi]
  · rw [filter_one]
    simp only [List.getElem?_concat_length]
    split <;> simp_all

/-- The state of the loop after the visible parameters `V`. -/
structure Inv (args : List Arg) (nu : Nat) (opt0 : List Nat) (V : List Param) (st : St) : Prop where
  map : st.map = fullMap V args nu
  used : st.used = (claims V args).length
  usings : st.usingsLeft = nu - rank V args V.length
  offset : posFrom (args.map (·.name)) st.offset = (positional args).drop (rank V args V.length - nu)
  required : st.required = (V.filter Required).length
  bound : st.boundOptional = boundOpt V args nu
  optional : st.optional = opt0.filter fun j => !(claims V args).contains j

theorem rank_snoc (V : List Param) (p : Param) (args : List Arg) :
    rank (V ++ [p]) args (V ++ [p]).length = rank V args V.length + if free args p then 1 else 0 := by
  unfold rank
  rw [List.take_length, List.take_length, List.filter_append, List.length_append]
  congr 1
  rw [filter_one]
  split <;> simp_all

theorem expect_last (V : List Param) (p : Param) (args : List Arg) (nu : Nat) :
    expect (V ++ [p]) args nu V.length = match named args p.name with
      | some j => some j
      | none => if rank V args V.length < nu then none else (positional args)[rank V args V.length - nu]? := by
  unfold expect
  rw [List.getElem?_concat_length]
  simp only [rank_append V [p] args (Nat.le_refl _)]
  cases named args p.name <;> rfl

theorem head_drop {α : Type} (l : List α) (k : Nat) : (l.drop k).head? = l[k]? := by
  rw [List.head?_drop]

/-- The common tail of `step`. -/
def countIt (p : Param) (idx : Option Nat) (st : St) : St :=
  let st := { st with map := st.map ++ [idx] }
  if !(p.dflt || p.impl) then { st with required := st.required + 1 }
  else if idx.isSome then { st with boundOptional := st.boundOptional + 1 }
  else st

theorem step_eq (names : List String) (st : St) (p : Param) (h : p.inj = false) :
    step names st p = match find names p.name with
      | some idx => countIt p (some idx) { st with used := st.used + 1, optional := st.optional.filter (· ≠ idx) }
      | none =>
        if 0 < st.usingsLeft then countIt p none { st with usingsLeft := st.usingsLeft - 1 }
        else countIt p (scan (names.drop st.offset) st.offset).1
          { st with offset := (scan (names.drop st.offset) st.offset).2 } := by
  unfold step
  rw [if_neg (by simp [h])]
  rfl

theorem countIt_fields (p : Param) (idx : Option Nat) (st : St) :
    (countIt p idx st).map = st.map ++ [idx] ∧ (countIt p idx st).used = st.used ∧
    (countIt p idx st).offset = st.offset ∧ (countIt p idx st).usingsLeft = st.usingsLeft ∧
    (countIt p idx st).optional = st.optional ∧
    (countIt p idx st).required = st.required + (if Required p then 1 else 0) ∧
    (countIt p idx st).boundOptional = st.boundOptional + (if !Required p && idx.isSome then 1 else 0) := by
  unfold countIt Required
  cases p.dflt <;> cases p.impl <;> cases idx <;> simp

theorem inv_step {args : List Arg} {nu : Nat} {opt0 : List Nat} {V : List Param} {st : St} (p : Param)
    (hp : p.inj = false) (h : Inv args nu opt0 V st) :
    Inv args nu opt0 (V ++ [p]) (step (args.map (·.name)) st p) := by
  rw [step_eq _ _ _ hp, find_eq]
  have hreq : ((V ++ [p]).filter Required).length = (V.filter Required).length + if Required p then 1 else 0 := by
    rw [List.filter_append, List.length_append, filter_one]
    split <;> simp_all
  have hexp := expect_last V p args nu
  have hfree : free args p = (named args p.name).isNone := rfl
  have hrank := rank_snoc V p args
  rcases hn : named args p.name with _ | idx
  · rw [hn] at hexp hfree
    simp only [Option.isNone_none] at hfree
    rw [if_pos hfree] at hrank
    have hclaims : claims (V ++ [p]) args = claims V args := by
      unfold claims; rw [List.filterMap_append]; simp [hn]
    simp only at hexp ⊢
    by_cases hu : 0 < st.usingsLeft
    · rw [if_pos hu]
      rw [h.usings] at hu
      have hlt : rank V args V.length < nu := by omega
      rw [if_pos hlt] at hexp
      obtain ⟨e1, e2, e3, e4, e5, e6, e7⟩ :=
        countIt_fields p none { st with usingsLeft := st.usingsLeft - 1 }
      refine ⟨?_, ?_, ?_, ?_, ?_, ?_, ?_⟩
      · rw [e1, fullMap_snoc, hexp, h.map]
      · rw [e2, hclaims]; exact h.used
      · rw [e4, hrank]; have := h.usings; simp only; omega
      · rw [e3, hrank]
        have ho := h.offset
        rw [show rank V args V.length - nu = 0 by omega] at ho
        rw [show rank V args V.length + 1 - nu = 0 by omega]
        exact ho
      · rw [e6, hreq]; simp only [h.required]
      · rw [e7, boundOpt_snoc, hexp]; simp only [h.bound]
      · rw [e5, hclaims]; exact h.optional
    · rw [if_neg hu]
      rw [h.usings] at hu
      have hlt : ¬ rank V args V.length < nu := by omega
      rw [if_neg hlt] at hexp
      obtain ⟨e1, e2, e3, e4, e5, e6, e7⟩ :=
        countIt_fields p (scan ((args.map (·.name)).drop st.offset) st.offset).1
          { st with offset := (scan ((args.map (·.name)).drop st.offset) st.offset).2 }
      obtain ⟨hs1, hs2⟩ := scan_spec (args.map (·.name)) _ st.offset rfl
      rw [h.offset, head_drop] at hs1
      rw [h.offset, List.tail_drop] at hs2
      rw [← hs1] at hexp
      refine ⟨?_, ?_, ?_, ?_, ?_, ?_, ?_⟩
      · rw [e1, fullMap_snoc, hexp, h.map]
      · rw [e2, hclaims]; exact h.used
      · rw [e4, hrank]; have := h.usings; simp only; omega
      · rw [e3, hrank, hs2, show rank V args V.length + 1 - nu = rank V args V.length - nu + 1 by omega]
      · rw [e6, hreq]; simp only [h.required]
      · rw [e7, boundOpt_snoc, hexp]; simp only [h.bound]
      · rw [e5, hclaims]; exact h.optional
  · rw [hn] at hexp hfree
    simp only [Option.isNone_some] at hfree
    rw [if_neg (by simp [hfree])] at hrank
    have hclaims : claims (V ++ [p]) args = claims V args ++ [idx] := by
      unfold claims; rw [List.filterMap_append]; simp [hn]
    simp only at hexp ⊢
    obtain ⟨e1, e2, e3, e4, e5, e6, e7⟩ :=
      countIt_fields p (some idx) { st with used := st.used + 1, optional := st.optional.filter (· ≠ idx) }
    refine ⟨?_, ?_, ?_, ?_, ?_, ?_, ?_⟩
    · rw [e1, fullMap_snoc, hexp, h.map]
    · rw [e2, hclaims, List.length_append, ← h.used]; rfl
    · rw [e4, hrank]; have := h.usings; simp only; omega
    · rw [e3, hrank]; exact h.offset
    · rw [e6, hreq]; simp only [h.required]
    · rw [e7, boundOpt_snoc, hexp]; simp only [h.bound]
    · rw [e5, hclaims]
      simp only [h.optional, List.filter_filter]
      apply List.filter_congr
      intro j _
      simp [List.contains_eq_mem, Bool.and_comm]

theorem fold_visible (names : List String) : ∀ (ps : List Param) (st : St),
    ps.foldl (step names) st = (ps.filter fun p => !p.inj).foldl (step names) st
  | [], st => rfl
  | p :: ps, st => by
    rw [List.foldl_cons, List.filter_cons]
    by_cases h : p.inj = true
    · rw [if_neg (by simp [h])]
      have : step names st p = st := by unfold step; rw [if_pos h]
      rw [this]; exact fold_visible names ps st
    · rw [if_pos (by simpa using h), List.foldl_cons]; exact fold_visible names ps _

theorem inv_fold (args : List Arg) (nu : Nat) (opt0 : List Nat) : ∀ (n : Nat) (V : List Param),
    V.length = n → (∀ p ∈ V, p.inj = false) →
    Inv args nu opt0 V (V.foldl (step (args.map (·.name))) ⟨[], 0, 0, nu, 0, 0, opt0⟩)
  | 0, V, hl, _ => by
    have : V = [] := List.length_eq_zero_iff.1 hl
    subst this
    refine ⟨rfl, rfl, by simp [rank], ?_, rfl, rfl, ?_⟩
    · rw [List.foldl_nil, posFrom_zero]; simp [rank]
    · simp [claims, List.filter_eq_self.2]
  | n + 1, V, hl, hV => by
    have hne : V ≠ [] := by intro e; subst e; simp at hl
    have e := List.dropLast_concat_getLast hne
    rw [← e, List.foldl_append]
    have hd := inv_fold args nu opt0 n V.dropLast (by rw [List.length_dropLast]; omega)
      (fun p hp => hV p ((List.dropLast_sublist V).subset hp))
    exact inv_step _ (hV _ (List.getLast_mem hne)) hd

end Verif.CallArgs
