import Verif.FieldProps
/-! # Where the places of fields are wrong (C107) -/
namespace Verif.Field
open Verif.Lifetime

/-- `struct S0 { a: i32; b: i32 }`, `struct S1 { a: S0; b: S0 }`, … -/
def pairs : Nat → List Decl
  | 0 => []
  | n + 1 => pairs n ++ [if n = 0 then ⟨.struct, [.prim, .prim]⟩ else ⟨.struct, [.user (n - 1), .user (n - 1)]⟩]

theorem pairs_length (n : Nat) : (pairs n).length = n := by
  induction n with
  | zero => rfl
  | succ n ih => simp [pairs, ih]

theorem pairs_get (n k : Nat) (hk : k < n) : (pairs n)[k]? = some (if k = 0 then ⟨.struct, [.prim, .prim]⟩ else ⟨.struct, [.user (k - 1), .user (k - 1)]⟩) := by
  induction n with
  | zero => omega
  | succ n ih =>
    unfold pairs
    by_cases h : k < n
    · rw [List.getElem?_append_left (by rw [pairs_length]; exact h), ih h]
    · have : k = n := by omega
      subst this
      rw [List.getElem?_append_right (by rw [pairs_length]), pairs_length]
      simp

theorem pairs_count (n k : Nat) (hk : k < n) : Count (pairs n) [.user k] (2 ^ (k + 1)) := by
  induction k with
  | zero =>
    rw [Count.struct_iff (by rw [pairs_get n 0 hk]; rfl)]
    exact .prim (.prim .nil)
  | succ k ih =>
    rw [Count.struct_iff (by rw [pairs_get n (k + 1) hk]; rfl)]
    have h := ih (by omega)
    rw [show 2 ^ (k + 1 + 1) = 2 ^ (k + 1) + 2 ^ (k + 1) by rw [Nat.pow_succ 2 (k + 1), Nat.mul_two]]
    simp only [Nat.add_sub_cancel]
    have : Count (pairs n) [.user k] (2 ^ (k + 1)) := h
    exact this.cons h

/-- **C107, what is false (1).** 17 structs of two fields, each the one before twice: the fields of the last have 2^16 parts, its second one lies after them;
the first reads back as one with nothing in it, so that it is held to be static, and the second as the first part of the value. -/
theorem C107_wrong_place_partial : ∃ types, solveAll (pairs 17) [] = some types ∧
    At (pairs 17) (.user 16) [0] 0 65536 (.user 15) ∧ At (pairs 17) (.user 16) [1] 65536 65536 (.user 15) ∧
    (∀ static lt, chain types static (.user 16) [0] lt = some static) ∧
    (∀ static r i x, ValidPath (i ++ [⟨131072, x⟩]) →
      chain types static (.user 16) [1] (encode [(r, [i ++ [⟨131072, x⟩]])]) = some (encode [(r, [i ++ [⟨1, x⟩]])])) := by
  obtain ⟨types, hs⟩ : ∃ types, solveAll (pairs 17) [] = some types :=
    ⟨(solveAll (pairs 17) []).get (by decide +kernel), by rw [Option.some_get]⟩
  have hd : (pairs 17)[16]? = some ⟨.struct, [.user 15, .user 15]⟩ := pairs_get 17 16 (by decide)
  have h15 := pairs_count 17 15 (by decide)
  have h16 := pairs_count 17 16 (by decide)
  have z : Count (pairs 17) (([.user 15, .user 15] : List Ty).take 0) 0 := .nil
  have o : Count (pairs 17) (([.user 15, .user 15] : List Ty).take 1) 65536 := h15
  obtain ⟨s, f0, h1, -, h2, -, rfl⟩ := field_at hs hd (i := 0) rfl z h15 h16
  obtain ⟨s', f1, h1', -, h2', -, rfl⟩ := field_at hs hd (i := 1) rfl o h15 h16
  rw [h1] at h1'
  cases h1'
  refine ⟨types, hs, .field (o := 0) hd rfl z (.self h15), .field (o := 0) hd rfl o (.self h15), fun static lt => ?_, fun static r i x hp => ?_⟩
  · unfold chain
    rw [h1]
    simp only [h2]
    have : unpack (pack (BitVec.ofNat 32 0) (BitVec.ofNat 32 (2 ^ (15 + 1)))) = (0#32, 0#32) := by decide
    unfold fieldOf
    rw [this]
    rfl
  · unfold chain
    rw [h1]
    simp only [h2']
    have : unpack (pack (BitVec.ofNat 32 65536) (BitVec.ofNat 32 (2 ^ (15 + 1)))) = (0#32, 1#32) := by decide
    unfold fieldOf
    rw [this]
    have hx : x < 2 ^ 31 := by
      rw [valid_snoc] at hp
      exact hp.2.2.2
    have := one_field (r := r) (c' := 1) (o' := 0) hp ⟨by decide, by decide⟩ hx
    unfold one at this
    simp only
    rw [if_neg (by decide), if_pos (by decide)]
    rw [show (1#32).toNat = 1 from rfl, show (0#32).toNat = 0 from rfl, this]
    rfl

/-- A field with 2^15 parts stops the compiler. -/
theorem C107_stops_partial : ∃ types, solveAll (pairs 16) [] = some types ∧ At (pairs 16) (.user 15) [0] 0 32768 (.user 14) ∧
    ∀ static lt, chain types static (.user 15) [0] lt = none := by
  obtain ⟨types, hs⟩ : ∃ types, solveAll (pairs 16) [] = some types :=
    ⟨(solveAll (pairs 16) []).get (by decide +kernel), by rw [Option.some_get]⟩
  have hd : (pairs 16)[15]? = some ⟨.struct, [.user 14, .user 14]⟩ := pairs_get 16 15 (by decide)
  have h14 := pairs_count 16 14 (by decide)
  have h15 := pairs_count 16 15 (by decide)
  have z : Count (pairs 16) (([.user 14, .user 14] : List Ty).take 0) 0 := .nil
  obtain ⟨s, f0, h1, -, h2, -, rfl⟩ := field_at hs hd (i := 0) rfl z h14 h15
  refine ⟨types, hs, .field (o := 0) hd rfl z (.self h14), fun static lt => ?_⟩
  unfold chain
  rw [h1]
  simp only [h2]
  have : unpack (pack (BitVec.ofNat 32 0) (BitVec.ofNat 32 (2 ^ (14 + 1)))) = (0#32, BitVec.ofInt 32 (-32768)) := by decide
  unfold fieldOf
  rw [this]
  simp only
  rw [if_neg (by decide), if_neg (by decide)]

/-- **C107, what is false (2).** The members of a union are all in the same place; their lifetimes never overlap. -/
theorem C107_union_partial : ∃ types, solveAll [⟨.union, [.prim, .slice]⟩] [] = some types ∧
    ∀ static r i x, ValidPath (i ++ [⟨2, x⟩]) → x + 2 < 2 ^ 31 → ∃ a b,
      chain types static (.user 0) [0] (encode [(r, [i ++ [⟨2, x⟩]])]) = some a ∧
      chain types static (.user 0) [1] (encode [(r, [i ++ [⟨2, x⟩]])]) = some b ∧ Lifetime_hasInter a b = some false := by
  refine ⟨[⟨2#32, [⟨.prim, pack 0#32 1#32⟩, ⟨.slice, pack 1#32 1#32⟩]⟩], by decide, fun static r i x hp hx => ?_⟩
  have a1 := one_field (r := r) (c' := 1) (o' := 0) hp ⟨by decide, by decide⟩ (by omega)
  have a2 := one_field (r := r) (c' := 1) (o' := 1) hp ⟨by decide, by decide⟩ (by omega)
  unfold one at a1 a2
  have v1 : ValidPath (i ++ [⟨1, x + 0⟩]) := by rw [valid_snoc] at hp ⊢; exact ⟨hp.1, Nat.one_pos, by simp only; omega, hp.2.2.2⟩
  have v2 : ValidPath (i ++ [⟨1, x + 1⟩]) := by rw [valid_snoc] at hp ⊢; exact ⟨hp.1, Nat.one_pos, by simp only; omega, by simp only; omega⟩
  obtain ⟨y, hy, hiff⟩ := one_inter (r := r) v1 v2
  have : y = false := by
    rw [Bool.eq_false_iff]
    intro h
    have := hiff.1 h
    omega
  subst this
  refine ⟨_, _, ?_, ?_, hy⟩
  · unfold chain
    simp only [List.getElem?_cons_zero]
    unfold fieldOf
    rw [show unpack (pack 0#32 1#32) = (0#32, 1#32) by decide]
    simp only
    rw [if_neg (by decide), if_pos (by decide), show (1#32).toNat = 1 from rfl, show (0#32).toNat = 0 from rfl, a1]
    rfl
  · unfold chain
    simp only [List.getElem?_cons_zero, List.getElem?_cons_succ]
    unfold fieldOf
    rw [show unpack (pack 1#32 1#32) = (1#32, 1#32) by decide]
    simp only
    rw [if_neg (by decide), if_pos (by decide), show (1#32).toNat = 1 from rfl, a2]
    rfl

/-! ## Instances -/

/-- `struct P { x: i32; y: i32 }`, `struct L { from: P; to: P; name: string }` -/
def shapes : List Decl := [⟨.struct, [.prim, .prim]⟩, ⟨.struct, [.user 0, .user 0, .slice]⟩]

/-- `l.to` of the four parts, `l.to.y` in it, `l.name` not -/
example : (solveAll shapes []).isSome ∧ Count shapes [.user 1] 5 ∧ At shapes (.user 1) [1] 2 2 (.user 0) ∧ At shapes (.user 1) [1, 1] 3 1 .prim ∧
    At shapes (.user 1) [2] 4 1 .slice := by
  have p : Count shapes [.prim] 1 := .prim .nil
  have pp : Count shapes [.prim, .prim] 2 := .prim p
  have u : Count shapes [.user 0] 2 := .parts (kd := .struct) rfl (by decide) pp .nil
  have uu : Count shapes [.user 0, .user 0] 4 := u.cons u
  have sl : Count shapes [.slice] 1 := .slice .nil
  have all : Count shapes [.user 0, .user 0, .slice] 5 := u.cons (u.cons sl)
  refine ⟨by decide, .parts (kd := .struct) rfl (by decide) all .nil, .field (o := 0) rfl rfl u (.self u),
    .field (o := 1) rfl rfl u (.field (o := 0) rfl rfl p (.self p)), .field (o := 0) rfl rfl uu (.self sl)⟩

example : ((solveAll shapes []).map fun ts => (explain ts 4 (.user 1) 1#32 3#32, explain ts 4 (.user 1) 2#32 2#32, explain ts 4 (.user 1) 1#32 4#32)) =
    some ([1, 1], [1], [2]) := by decide

end Verif.Field
