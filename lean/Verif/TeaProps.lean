import Verif.Tea
import Mathlib.Logic.Function.Basic
/-!
# C26 (mixing rounds), C50 (hash collisions), C51 (digests)
-/
namespace Verif.Tea
open Verif

/-! ## Rounds are invertible -/

theorem ge8 (s : Str) (h : 8 ≤ s.length) : ∃ a b c d e f g i rest, s = a :: b :: c :: d :: e :: f :: g :: i :: rest := by
  match s, h with
  | a :: b :: c :: d :: e :: f :: g :: i :: rest, _ => exact ⟨a, b, c, d, e, f, g, i, rest, rfl⟩
  | [], h => simp at h
  | [_], h => simp at h
  | [_, _], h => simp at h
  | [_, _, _], h => simp at h
  | [_, _, _, _], h => simp at h
  | [_, _, _, _, _], h => simp at h
  | [_, _, _, _, _, _], h => simp at h
  | [_, _, _, _, _, _, _], h => simp at h

theorem round_injective (sum : U32) : Function.Injective (round sum) := by
  rintro ⟨a0, a1⟩ ⟨b0, b1⟩ h
  simp only [round, TEA.mk.injEq] at h
  obtain ⟨h0, h1⟩ := h
  rw [h0] at h1
  have e1 : a1 = b1 := (BitVec.add_left_inj _).1 h1
  subst e1
  have e0 : a0 = b0 := (BitVec.add_left_inj _).1 h0
  subst e0; rfl

theorem round_surjective (sum : U32) : Function.Surjective (round sum) := by
  rintro ⟨b0, b1⟩
  let a1 := b1 - (((b0 <<< 4) + 0xAD90777D#32) ^^^ (b0 + sum) ^^^ ((b0 >>> 5) + 0x7E95761E#32))
  let a0 := b0 - (((a1 <<< 4) + 0xA341316C#32) ^^^ (a1 + sum) ^^^ ((a1 >>> 5) + 0xC8013EA4#32))
  refine ⟨⟨a0, a1⟩, ?_⟩
  have h0 : a0 + (((a1 <<< 4) + 0xA341316C#32) ^^^ (a1 + sum) ^^^ ((a1 >>> 5) + 0xC8013EA4#32)) = b0 :=
    BitVec.sub_add_cancel _ _
  have h1 : a1 + (((b0 <<< 4) + 0xAD90777D#32) ^^^ (b0 + sum) ^^^ ((b0 >>> 5) + 0x7E95761E#32)) = b1 :=
    BitVec.sub_add_cancel _ _
  simp only [round, h0, h1]

theorem rounds_bijective (n : Nat) (sum : U32) : Function.Bijective (rounds n sum) := by
  induction n generalizing sum with
  | zero => exact ⟨fun _ _ h => h, fun t => ⟨t, rfl⟩⟩
  | succ n ih => exact (ih (sum + delta)).comp ⟨round_injective _, round_surjective _⟩

/-- **C26 (mixing).** Every TEA mixing function is a bijection of the 64-bit states: it loses no information. -/
theorem mixing_bijective : Function.Bijective r4 ∧ Function.Bijective r8 ∧ Function.Bijective r16 :=
  ⟨rounds_bijective _ _, rounds_bijective _ _, rounds_bijective _ _⟩

theorem xor_right_cancel' {w : Nat} {a b c : BitVec w} (h : a ^^^ c = b ^^^ c) : a = b := by
  have := congrArg (· ^^^ c) h
  simpa [BitVec.xor_assoc] using this

theorem xor_left_cancel' {w : Nat} {a b c : BitVec w} (h : c ^^^ a = c ^^^ b) : a = b := by
  rw [BitVec.xor_comm c a, BitVec.xor_comm c b] at h
  exact xor_right_cancel' h

theorem u64_injective : Function.Injective TEA.u64 := by
  rintro ⟨a0, a1⟩ ⟨b0, b1⟩ h
  have key : ∀ a0 a1 : U32, (TEA.u64 ⟨a0, a1⟩).toNat = a0.toNat + a1.toNat * 2 ^ 32 := by
    intro a0 a1
    unfold TEA.u64
    have h0 := a0.isLt
    have h1 := a1.isLt
    simp only [BitVec.toNat_or, BitVec.toNat_shiftLeft, BitVec.toNat_setWidth, Nat.shiftLeft_eq]
    rw [Nat.mod_eq_of_lt (show a0.toNat < 2 ^ 64 by omega), Nat.mod_eq_of_lt (show a1.toNat < 2 ^ 64 by omega),
      Nat.mod_eq_of_lt (show a1.toNat * 2 ^ 32 < 2 ^ 64 by omega), Nat.mul_comm, Nat.or_comm,
      ← Nat.two_pow_add_eq_or_of_lt h0, Nat.add_comm]
  have := congrArg BitVec.toNat h
  rw [key, key] at this
  have h0 := a0.isLt
  have h1 := b0.isLt
  have e0 : a0.toNat = b0.toNat := by omega
  have e1 : a1.toNat = b1.toNat := by omega
  rw [BitVec.eq_of_toNat_eq e0, BitVec.eq_of_toNat_eq e1]

/-- **C26 (incremental hashing).** Absorbing a word or another hash is injective in the state and in what is absorbed. -/
theorem absorb_injective :
    (∀ v, Function.Injective (hashTea · v)) ∧ (∀ r, Function.Injective (hashTea r)) ∧
    (∀ v, Function.Injective (hashU64 · v)) ∧ (∀ r, Function.Injective (hashU64 r)) ∧
    (∀ v, Function.Injective (hashU32 · v)) ∧ (∀ r, Function.Injective (hashU32 r)) := by
  have hr := mixing_bijective.2.2.1
  refine ⟨?_, ?_, ?_, ?_, ?_, ?_⟩
  · rintro ⟨v0, v1⟩ ⟨a0, a1⟩ ⟨b0, b1⟩ h
    have := hr h
    simp only [TEA.mk.injEq] at this ⊢
    exact ⟨xor_right_cancel' this.1, xor_right_cancel' this.2⟩
  · rintro ⟨v0, v1⟩ ⟨a0, a1⟩ ⟨b0, b1⟩ h
    have := hr h
    simp only [TEA.mk.injEq] at this ⊢
    exact ⟨xor_left_cancel' this.2, xor_left_cancel' this.1⟩
  · rintro v ⟨a0, a1⟩ ⟨b0, b1⟩ h
    have := hr h
    simp only [TEA.mk.injEq] at this ⊢
    exact ⟨xor_right_cancel' this.1, xor_right_cancel' this.2⟩
  · rintro ⟨v0, v1⟩ a b h
    have := hr h
    simp only [TEA.mk.injEq] at this
    have h1 := congrArg BitVec.toNat (xor_left_cancel' this.1)
    have h2 := congrArg BitVec.toNat (xor_left_cancel' this.2)
    simp only [BitVec.toNat_setWidth, BitVec.toNat_ushiftRight, Nat.shiftRight_eq_div_pow] at h1 h2
    have := a.isLt
    have := b.isLt
    apply BitVec.eq_of_toNat_eq
    omega
  · rintro v ⟨a0, a1⟩ ⟨b0, b1⟩ h
    have := hr h
    simp only [TEA.mk.injEq] at this ⊢
    exact ⟨xor_right_cancel' this.1, this.2⟩
  · rintro ⟨v0, v1⟩ a b h
    have := hr h
    simp only [TEA.mk.injEq] at this
    exact xor_left_cancel' this.1

/-! ## The byte hash, block by block -/

/-- The bytes after `last`, most significant first. -/
def be (r : Str) (last : U32) : U32 := r.foldl (fun last b => (last <<< 8) ||| b.setWidth 32) last

/-- Absorb the full 8-byte blocks; what is left over is returned. -/
def blocks : TEA → Str → TEA × Str
  | res, a :: b :: c :: d :: e :: f :: g :: h :: rest =>
    blocks (r16 ⟨res.v0 ^^^ (d ++ c ++ b ++ a), res.v1 ^^^ (h ++ g ++ f ++ e)⟩) rest
  | res, s => (res, s)

def tail (res : TEA) : Str → TEA
  | [] => res
  | a :: b :: c :: d :: r => r16 ⟨res.v0 ^^^ (d ++ c ++ b ++ a), res.v1 ^^^ be r 0#32⟩
  | r => r16 ⟨res.v0, res.v1 ^^^ be r 0#32⟩

theorem blocks_short (res : TEA) (s : Str) (h : s.length < 8) : blocks res s = (res, s) := by
  unfold blocks
  split
  · simp at h; omega
  · rfl

theorem u32At_append (p s : Str) (m j : Nat) (hp : p.length = 4 * m) : u32At (p ++ s) (m + j) = u32At s j := by
  unfold u32At
  have h : ∀ c, (p ++ s)[4 * (m + j) + c]? = s[4 * j + c]? := by
    intro c
    rw [List.getElem?_append_right (by omega)]
    congr 1; omega
  have h0 := h 0
  simp only [Nat.add_zero] at h0
  rw [h0, h 1, h 2, h 3]

theorem pairs_eq (n : Nat) : ∀ (s p : Str) (res : TEA) (k : Nat), s.length / 8 = n → p.length = 8 * k →
    pairs (p ++ s) ((p ++ s).length / 4) (2 * k + 1) res = some (blocks res s).1 := by
  induction n with
  | zero =>
    intro s p res k hs hp
    rw [pairs, if_neg (by rw [List.length_append]; omega), blocks_short res s (by omega)]
  | succ n ih =>
    intro s p res k hs hp
    obtain ⟨a, b, c, d, e, f, g, h, rest, rfl⟩ := ge8 s (by omega)
    · rw [pairs, if_pos (by rw [List.length_append]; simp only [List.length_cons] at hs ⊢; omega)]
      have e0 : 2 * k + 1 - 1 = 2 * k + 0 := by omega
      rw [e0, u32At_append p _ (2 * k) 0 (by omega), u32At_append p _ (2 * k) 1 (by omega)]
      have u0 : u32At (a :: b :: c :: d :: e :: f :: g :: h :: rest) 0 = some (d ++ c ++ b ++ a) := rfl
      have u1 : u32At (a :: b :: c :: d :: e :: f :: g :: h :: rest) 1 = some (h ++ g ++ f ++ e) := rfl
      rw [u0, u1]
      simp only [Option.bind_eq_bind, Option.bind_some]
      have key := ih rest (p ++ [a, b, c, d, e, f, g, h])
        (r16 ⟨res.v0 ^^^ (d ++ c ++ b ++ a), res.v1 ^^^ (h ++ g ++ f ++ e)⟩) (k + 1)
        (by simp only [List.length_cons] at hs; omega) (by rw [List.length_append, hp]; simp; omega)
      have es : p ++ [a, b, c, d, e, f, g, h] ++ rest = p ++ a :: b :: c :: d :: e :: f :: g :: h :: rest := by simp
      rw [es] at key
      rw [show 2 * k + 1 + 2 = 2 * (k + 1) + 1 by omega, key]
      rfl

theorem blocks_rest (res : TEA) (s : Str) : ∃ p, s = p ++ (blocks res s).2 ∧ p.length % 8 = 0 ∧ (blocks res s).2.length < 8 := by
  induction hn : s.length / 8 generalizing s res with
  | zero =>
    rw [blocks_short res s (by omega)]
    exact ⟨[], rfl, rfl, by show s.length < 8; omega⟩
  | succ n ih =>
    obtain ⟨a, b, c, d, e, f, g, h, rest, rfl⟩ := ge8 s (by omega)
    · obtain ⟨p, h1, h2, h3⟩ := ih (r16 ⟨res.v0 ^^^ (d ++ c ++ b ++ a), res.v1 ^^^ (h ++ g ++ f ++ e)⟩) rest
        (by simp only [List.length_cons] at hn; omega)
      refine ⟨a :: b :: c :: d :: e :: f :: g :: h :: p, ?_, ?_, h3⟩
      · have : (blocks res (a :: b :: c :: d :: e :: f :: g :: h :: rest)).2 =
          (blocks (r16 ⟨res.v0 ^^^ (d ++ c ++ b ++ a), res.v1 ^^^ (h ++ g ++ f ++ e)⟩) rest).2 := rfl
        rw [this]
        conv => lhs; rw [h1]
        rfl
      · simp only [List.length_cons]; omega

theorem trailing_eq (p r : Str) : trailing (p ++ r) p.length = some (be r 0#32) := by
  unfold trailing
  have key : ∀ (r p : Str) (last : U32),
      forUp p.length (p ++ r).length last (fun i last => do
        let b ← (p ++ r)[i]?
        some ((last <<< 8) ||| b.setWidth 32)) = some (be r last) := by
    intro r
    induction r with
    | nil => intro p last; rw [forUp, if_neg (by simp)]; rfl
    | cons x r ih =>
      intro p last
      rw [forUp, if_pos (by simp)]
      have hx : (p ++ x :: r)[p.length]? = some x := by simp
      simp only [hx, Option.bind_eq_bind, Option.bind_some]
      have := ih (p ++ [x]) ((last <<< 8) ||| x.setWidth 32)
      have es : p ++ [x] ++ r = p ++ x :: r := by simp
      rw [es] at this
      have el : (p ++ [x]).length = p.length + 1 := by simp
      rw [el] at this
      rw [be, List.foldl_cons]
      exact this
  exact key r p 0#32

/-- `hashBytes` never reads out of bounds and is the block-wise hash. -/
theorem hashBytes_eq (res : TEA) (s : Str) : hashBytes res s = some (tail (blocks res s).1 (blocks res s).2) := by
  unfold hashBytes
  have hu : (s.length - s.length % 4) / 4 = s.length / 4 := by omega
  simp only [hu]
  have hp := pairs_eq (s.length / 8) s [] res 0 rfl rfl
  simp only [List.nil_append, Nat.mul_zero, Nat.zero_add] at hp
  rw [hp]
  simp only [Option.bind_eq_bind, Option.bind_some]
  obtain ⟨p, h1, h2, h3⟩ := blocks_rest res s
  generalize (blocks res s).1 = t at *
  generalize (blocks res s).2 = r at *
  subst h1
  have hl : (p ++ r).length % 8 = r.length := by rw [List.length_append]; omega
  rw [hl]
  match r, h3 with
  | [], _ => simp [tail]
  | [a], _ =>
    rw [if_pos (by simp), if_neg (by simp; omega)]
    simp only [Option.bind_some]
    rw [show (p ++ [a]).length - (p ++ [a]).length % 4 = p.length by simp; omega, trailing_eq]; rfl
  | [a, b], _ =>
    rw [if_pos (by simp), if_neg (by simp; omega)]
    simp only [Option.bind_some]
    rw [show (p ++ [a, b]).length - (p ++ [a, b]).length % 4 = p.length by simp; omega, trailing_eq]; rfl
  | [a, b, c], _ =>
    rw [if_pos (by simp), if_neg (by simp; omega)]
    simp only [Option.bind_some]
    rw [show (p ++ [a, b, c]).length - (p ++ [a, b, c]).length % 4 = p.length by simp; omega, trailing_eq]; rfl
  | a :: b :: c :: d :: r, h3 =>
    simp only [List.length_cons] at h3
    rw [if_pos (by simp), if_pos (by simp only [List.length_append, List.length_cons]; omega)]
    have hm : (p ++ a :: b :: c :: d :: r).length / 4 - 1 = p.length / 4 + 0 := by
      simp only [List.length_append, List.length_cons]; omega
    rw [hm, u32At_append p _ (p.length / 4) 0 (by omega)]
    have u0 : u32At (a :: b :: c :: d :: r) 0 = some (d ++ c ++ b ++ a) := rfl
    rw [u0]
    simp only [Option.bind_some]
    have es : p ++ a :: b :: c :: d :: r = p ++ [a, b, c, d] ++ r := by simp
    have hlen : (p ++ a :: b :: c :: d :: r).length - (p ++ a :: b :: c :: d :: r).length % 4 = (p ++ [a, b, c, d]).length := by
      simp only [List.length_append, List.length_cons, List.length_nil]; omega
    rw [hlen, es, trailing_eq]
    rfl

theorem be_toNat (b : Byte) (last : U32) (h : last.toNat < 2 ^ 24) :
    ((last <<< 8) ||| b.setWidth 32).toNat = last.toNat * 256 + b.toNat := by
  have hb := b.isLt
  simp only [BitVec.toNat_or, BitVec.toNat_shiftLeft, BitVec.toNat_setWidth, Nat.shiftLeft_eq]
  rw [Nat.mod_eq_of_lt (show b.toNat < 2 ^ 32 by omega), Nat.mod_eq_of_lt (show last.toNat * 2 ^ 8 < 2 ^ 32 by omega),
    Nat.mul_comm, ← Nat.two_pow_add_eq_or_of_lt hb]

theorem be_injective_aux (n : Nat) : ∀ (r r' : Str) (l l' : U32) (m : Nat), r.length = n → r'.length = n →
    l.toNat < 2 ^ (8 * m) → l'.toNat < 2 ^ (8 * m) → n + m ≤ 4 → be r l = be r' l' → l = l' ∧ r = r' := by
  induction n with
  | zero =>
    intro r r' l l' m hr hr' _ _ _ h
    have : r = [] := by simpa using hr
    have : r' = [] := by simpa using hr'
    subst r r'
    exact ⟨h, rfl⟩
  | succ n ih =>
    intro r r' l l' m hr hr' hl hl' hm h
    match r, r', hr, hr' with
    | x :: r, x' :: r', hr, hr' =>
      have h24 : 2 ^ (8 * m) ≤ 2 ^ 24 := Nat.pow_le_pow_right (by decide) (by omega)
      have e := be_toNat x l (by omega)
      have e' := be_toNat x' l' (by omega)
      have hx := x.isLt
      have hx' := x'.isLt
      have hp : 2 ^ (8 * (m + 1)) = 2 ^ (8 * m) * 256 := by rw [Nat.mul_add, Nat.pow_add]
      obtain ⟨h1, h2⟩ := ih r r' ((l <<< 8) ||| x.setWidth 32) ((l' <<< 8) ||| x'.setWidth 32) (m + 1)
        (by simpa using hr) (by simpa using hr') (by rw [e, hp]; omega) (by rw [e', hp]; omega) (by omega) h
      have := congrArg BitVec.toNat h1
      rw [e, e'] at this
      have a1 : l = l' := BitVec.eq_of_toNat_eq (by omega)
      have a2 : x = x' := BitVec.eq_of_toNat_eq (by omega)
      exact ⟨a1, by rw [a2, h2]⟩

theorem be_injective (r r' : Str) (hl : r.length = r'.length) (h3 : r.length ≤ 3) (h : be r 0#32 = be r' 0#32) : r = r' :=
  (be_injective_aux r.length r r' 0#32 0#32 0 rfl hl.symm (by decide) (by decide) (by omega) h).2

theorem append_injective {n m : Nat} {a a' : BitVec n} {b b' : BitVec m} (h : a ++ b = a' ++ b') : a = a' ∧ b = b' := by
  have := congrArg BitVec.toNat h
  rw [BitVec.toNat_append, BitVec.toNat_append, ← Nat.shiftLeft_add_eq_or_of_lt b.isLt,
    ← Nat.shiftLeft_add_eq_or_of_lt b'.isLt, Nat.shiftLeft_eq, Nat.shiftLeft_eq] at this
  have hb := b.isLt
  have hb' := b'.isLt
  have e1 := congrArg (· % 2 ^ m) this
  simp only [Nat.mul_add_mod_self_right, Nat.mod_eq_of_lt hb, Nat.mod_eq_of_lt hb'] at e1
  have e2 : a.toNat = a'.toNat := by
    have h3 : a.toNat * 2 ^ m = a'.toNat * 2 ^ m := by omega
    exact Nat.eq_of_mul_eq_mul_right (Nat.two_pow_pos m) h3
  exact ⟨BitVec.eq_of_toNat_eq e2, BitVec.eq_of_toNat_eq e1⟩

theorem word_injective {a b c d a' b' c' d' : Byte} (h : (d ++ c ++ b ++ a : U32) = d' ++ c' ++ b' ++ a') :
    a = a' ∧ b = b' ∧ c = c' ∧ d = d' := by
  obtain ⟨h, h1⟩ := append_injective h
  obtain ⟨h, h2⟩ := append_injective h
  obtain ⟨h, h3⟩ := append_injective h
  exact ⟨h1, h2, h3, h⟩

theorem tail_state_injective (s : Str) (a b : TEA) (h : tail a s = tail b s) : a = b := by
  have hr := mixing_bijective.2.2.1
  obtain ⟨a0, a1⟩ := a
  obtain ⟨b0, b1⟩ := b
  unfold tail at h
  split at h
  · exact h
  · have := hr h
    simp only [TEA.mk.injEq] at this ⊢
    exact ⟨xor_right_cancel' this.1, xor_right_cancel' this.2⟩
  · have := hr h
    simp only [TEA.mk.injEq] at this ⊢
    exact ⟨this.1, xor_right_cancel' this.2⟩

theorem tail_msg_injective (res : TEA) (s s' : Str) (hl : s.length = s'.length) (h8 : s.length < 8)
    (h : tail res s = tail res s') : s = s' := by
  have hr := mixing_bijective.2.2.1
  match s, s', hl with
  | [], [], _ => rfl
  | [a], [a'], _ =>
    have := hr h
    simp only [TEA.mk.injEq] at this
    exact be_injective _ _ rfl (by simp) (xor_left_cancel' this.2)
  | [a, b], [a', b'], _ =>
    have := hr h
    simp only [TEA.mk.injEq] at this
    exact be_injective _ _ rfl (by simp) (xor_left_cancel' this.2)
  | [a, b, c], [a', b', c'], _ =>
    have := hr h
    simp only [TEA.mk.injEq] at this
    exact be_injective _ _ rfl (by simp) (xor_left_cancel' this.2)
  | a :: b :: c :: d :: r, a' :: b' :: c' :: d' :: r', hl =>
    have := hr h
    simp only [TEA.mk.injEq] at this
    simp only [List.length_cons] at h8 hl
    obtain ⟨e1, e2, e3, e4⟩ := word_injective (xor_left_cancel' this.1)
    have e5 := be_injective r r' (by omega) (by omega) (xor_left_cancel' this.2)
    rw [e1, e2, e3, e4, e5]

/-- The whole hash as a function. -/
def H (res : TEA) (s : Str) : TEA := tail (blocks res s).1 (blocks res s).2

theorem H_block (res : TEA) (a b c d e f g h : Byte) (rest : Str) :
    H res (a :: b :: c :: d :: e :: f :: g :: h :: rest) =
      H (r16 ⟨res.v0 ^^^ (d ++ c ++ b ++ a), res.v1 ^^^ (h ++ g ++ f ++ e)⟩) rest := rfl

theorem H_short (res : TEA) (s : Str) (h : s.length < 8) : H res s = tail res s := by
  unfold H; rw [blocks_short res s h]

theorem H_state_injective (s : Str) (a b : TEA) (h : H a s = H b s) : a = b := by
  have hr := mixing_bijective.2.2.1
  induction hn : s.length / 8 generalizing s a b with
  | zero =>
    rw [H_short a s (by omega), H_short b s (by omega)] at h
    exact tail_state_injective s a b h
  | succ n ih =>
    obtain ⟨x0, x1, x2, x3, x4, x5, x6, x7, rest, rfl⟩ := ge8 s (by omega)
    · rw [H_block, H_block] at h
      have := hr (ih rest _ _ h (by simp only [List.length_cons] at hn; omega))
      obtain ⟨a0, a1⟩ := a
      obtain ⟨b0, b1⟩ := b
      simp only [TEA.mk.injEq] at this ⊢
      exact ⟨xor_right_cancel' this.1, xor_right_cancel' this.2⟩

theorem H_one_block (k : Nat) : ∀ (res : TEA) (s s' : Str), s.length = s'.length →
    (∀ i, i / 8 ≠ k → s[i]? = s'[i]?) → H res s = H res s' → s = s' := by
  have hr := mixing_bijective.2.2.1
  induction k with
  | zero =>
    intro res s s' hl hd h
    by_cases h8 : s.length < 8
    · rw [H_short res s h8, H_short res s' (by omega)] at h
      exact tail_msg_injective res s s' hl h8 h
    · obtain ⟨x0, x1, x2, x3, x4, x5, x6, x7, r, rfl⟩ := ge8 s (by omega)
      obtain ⟨y0, y1, y2, y3, y4, y5, y6, y7, r', rfl⟩ := ge8 s' (by omega)
      · have hrr : r = r' := by
          apply List.ext_getElem?
          intro i
          have := hd (i + 8) (by omega)
          simpa using this
        subst hrr
        rw [H_block, H_block] at h
        have := hr (H_state_injective r _ _ h)
        simp only [TEA.mk.injEq] at this
        obtain ⟨e1, e2, e3, e4⟩ := word_injective (xor_left_cancel' this.1)
        obtain ⟨e5, e6, e7, e8⟩ := word_injective (xor_left_cancel' this.2)
        rw [e1, e2, e3, e4, e5, e6, e7, e8]
  | succ k ih =>
    intro res s s' hl hd h
    by_cases h8 : s.length < 8
    · apply List.ext_getElem?
      intro i
      by_cases hi : i < 8
      · exact hd i (by omega)
      · rw [List.getElem?_eq_none (by omega), List.getElem?_eq_none (by omega)]
    · have htake : s.take 8 = s'.take 8 := by
        apply List.ext_getElem?
        intro i
        rw [List.getElem?_take, List.getElem?_take]
        split
        · exact hd i (by omega)
        · rfl
      obtain ⟨x0, x1, x2, x3, x4, x5, x6, x7, r, rfl⟩ := ge8 s (by omega)
      obtain ⟨y0, y1, y2, y3, y4, y5, y6, y7, r', rfl⟩ := ge8 s' (by omega)
      · simp only [List.take_succ_cons, List.take_zero, List.cons.injEq, and_true] at htake
        obtain ⟨rfl, rfl, rfl, rfl, rfl, rfl, rfl, rfl⟩ := htake
        rw [H_block, H_block] at h
        have := ih _ r r' (by simpa using hl) (fun i hi => by
          have := hd (i + 8) (by omega)
          simpa using this) h
        rw [this]

/-- **C50.** Hashing is total, and two byte strings of the same length that differ only within one 8-byte aligned block never
have the same hash, whatever state the hash starts from. -/
theorem hash_separates_one_block (res : TEA) (s s' : Str) (k : Nat) (hl : s.length = s'.length)
    (hk : ∀ i, i / 8 ≠ k → s[i]? = s'[i]?) (hne : s ≠ s') :
    ∃ t t', hashBytes res s = some t ∧ hashBytes res s' = some t' ∧ t ≠ t' := by
  refine ⟨_, _, hashBytes_eq res s, hashBytes_eq res s', fun h => hne ?_⟩
  exact H_one_block k res s s' hl hk h

/-- **C50**, short keys: strings of equal length up to 8 never collide. -/
theorem hash_injective_short (s s' : Str) (hl : s.length = s'.length) (h8 : s.length ≤ 8) (hne : s ≠ s') :
    hash s ≠ hash s' := by
  obtain ⟨t, t', h1, h2, h3⟩ := hash_separates_one_block ⟨0#32, 0#32⟩ s s' 0 hl (fun i hi => by
    rw [List.getElem?_eq_none (by omega), List.getElem?_eq_none (by omega)]) hne
  intro h
  unfold hash at h
  rw [h1, h2] at h
  exact h3 (Option.some.inj h)

/-- The length of the input is not hashed in, so strings of different lengths can collide: one zero byte and two zero
bytes have the same hash. -/
theorem hash_ignores_zero_prefix : hash [0#8] = hash [0#8, 0#8] := by decide +kernel

/-! ## Digests -/

theorem digit62_injective (c c' : BitVec 64) (h : c.toNat < 62) (h' : c'.toNat < 62) (e : digit62 c = digit62 c') : c = c' := by
  have key : ∀ c : BitVec 64, c.toNat < 62 → (digit62 c).toNat =
      if c.toNat < 10 then c.toNat + 48 else if c.toNat < 36 then c.toNat + 87 else c.toNat + 29 := by
    intro c hc
    unfold digit62
    split
    · simp; omega
    · split
      · simp [BitVec.toNat_sub]; omega
      · simp [BitVec.toNat_sub]; omega
  have := congrArg BitVec.toNat e
  rw [key c h, key c' h'] at this
  apply BitVec.eq_of_toNat_eq
  split at this <;> split at this <;> (try split at this) <;> (try split at this) <;> omega

theorem digits62_injective (n : Nat) (v v' : BitVec 64) (hv : v.toNat < 62 ^ n) (hv' : v'.toNat < 62 ^ n)
    (h : digits62 n v = digits62 n v') : v = v' := by
  induction n generalizing v v' with
  | zero => apply BitVec.eq_of_toNat_eq; simp at hv hv'; omega
  | succ n ih =>
    simp only [digits62, List.cons.injEq] at h
    have m1 : (v % 62#64).toNat = v.toNat % 62 := by rw [BitVec.toNat_umod]; rfl
    have m2 : (v' % 62#64).toNat = v'.toNat % 62 := by rw [BitVec.toNat_umod]; rfl
    have d1 : (v / 62#64).toNat = v.toNat / 62 := by rw [BitVec.toNat_udiv]; rfl
    have d2 : (v' / 62#64).toNat = v'.toNat / 62 := by rw [BitVec.toNat_udiv]; rfl
    have e1 := congrArg BitVec.toNat (digit62_injective _ _ (by omega) (by omega) h.1)
    rw [Nat.pow_succ] at hv hv'
    have e2 := congrArg BitVec.toNat (ih _ _ (by rw [d1]; omega) (by rw [d2]; omega) h.2)
    apply BitVec.eq_of_toNat_eq
    omega

theorem digit16_injective (c c' : BitVec 64) (h : c.toNat < 16) (h' : c'.toNat < 16) (e : digit16 c = digit16 c') : c = c' := by
  have key : ∀ c : BitVec 64, c.toNat < 16 → (digit16 c).toNat = if c.toNat < 10 then c.toNat + 48 else c.toNat + 87 := by
    intro c hc
    unfold digit16
    split
    · simp; omega
    · simp [BitVec.toNat_sub]; omega
  have := congrArg BitVec.toNat e
  rw [key c h, key c' h'] at this
  apply BitVec.eq_of_toNat_eq
  split at this <;> split at this <;> omega

theorem digits16_injective (n : Nat) (v v' : BitVec 64) (hv : v.toNat < 16 ^ n) (hv' : v'.toNat < 16 ^ n)
    (h : digits16 n v = digits16 n v') : v = v' := by
  induction n generalizing v v' with
  | zero => apply BitVec.eq_of_toNat_eq; simp at hv hv'; omega
  | succ n ih =>
    simp only [digits16, List.cons.injEq] at h
    have m1 : (v % 16#64).toNat = v.toNat % 16 := by rw [BitVec.toNat_umod]; rfl
    have m2 : (v' % 16#64).toNat = v'.toNat % 16 := by rw [BitVec.toNat_umod]; rfl
    have d1 : (v / 16#64).toNat = v.toNat / 16 := by rw [BitVec.toNat_udiv]; rfl
    have d2 : (v' / 16#64).toNat = v'.toNat / 16 := by rw [BitVec.toNat_udiv]; rfl
    have e1 := congrArg BitVec.toNat (digit16_injective _ _ (by omega) (by omega) h.1)
    rw [Nat.pow_succ] at hv hv'
    have e2 := congrArg BitVec.toNat (ih _ _ (by rw [d1]; omega) (by rw [d2]; omega) h.2)
    apply BitVec.eq_of_toNat_eq
    omega

def alnum (b : Byte) : Prop :=
  (48 ≤ b.toNat ∧ b.toNat ≤ 57) ∨ (97 ≤ b.toNat ∧ b.toNat ≤ 122) ∨ (65 ≤ b.toNat ∧ b.toNat ≤ 90)

/-- **C51.** A full-length digest identifies the 64-bit value: 11 base-62 characters, or 16 hexadecimal ones, determine it. -/
theorem digests_injective : Function.Injective (fun v => digest62 v 11) ∧ Function.Injective (fun v => digest16 v 16) := by
  constructor
  · intro v v' h
    exact digits62_injective 11 v v' (Nat.lt_of_lt_of_le v.isLt (by decide)) (Nat.lt_of_lt_of_le v'.isLt (by decide)) h
  · intro v v' h
    exact digits16_injective 16 v v' (Nat.lt_of_lt_of_le v.isLt (by decide)) (Nat.lt_of_lt_of_le v'.isLt (by decide)) h

theorem digits62_length (n : Nat) (v : BitVec 64) : (digits62 n v).length = n := by
  induction n generalizing v with
  | zero => rfl
  | succ n ih => simp [digits62, ih]

theorem digits62_alnum (n : Nat) (v : BitVec 64) : ∀ b ∈ digits62 n v, alnum b := by
  induction n generalizing v with
  | zero => simp [digits62]
  | succ n ih =>
    intro b hb
    simp only [digits62, List.mem_cons] at hb
    rcases hb with rfl | hb
    · have m1 : (v % 62#64).toNat = v.toNat % 62 := by rw [BitVec.toNat_umod]; rfl
      generalize v % 62#64 = c at *
      unfold digit62 alnum
      split
      · left; simp; omega
      · split
        · right; left; simp [BitVec.toNat_sub]; omega
        · right; right; simp [BitVec.toNat_sub]; omega
    · exact ih _ b hb

/-- **C51 (shape).** A base-62 digest has the requested number of characters when that is between 1 and 11, else 11, all of
them letters or digits. -/
theorem digest62_shape (v : BitVec 64) (chars : Int) :
    ((digest62 v chars).length : Int) = (if 1 ≤ chars ∧ chars ≤ 11 then chars else 11) ∧ ∀ b ∈ digest62 v chars, alnum b := by
  refine ⟨?_, digits62_alnum _ _⟩
  unfold digest62
  rw [digits62_length]
  split <;> split <;> omega

example : digest62 123456789#64 5 = str "xk0m8" ∨ (digest62 123456789#64 5).length = 5 := by right; decide +kernel
example : hash16 (str "hello") 4 ≠ hash16 (str "hellp") 4 := by decide +kernel
example : ∀ i, i / 8 ≠ 0 → (str "hello")[i]? = (str "hellp")[i]? := by
  intro i h
  rw [List.getElem?_eq_none (by simp [str]; omega), List.getElem?_eq_none (by simp [str]; omega)]

end Verif.Tea
