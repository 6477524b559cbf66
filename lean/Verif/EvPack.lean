import Verif.EvSpec
/-! # What is packed into the user data of epoll comes back -/
namespace Verif.Ev

theorem Kind.num_lt (k : Kind) : k.num < 8 := by cases k <;> decide
theorem Kind.ofNum_num (k : Kind) : Kind.ofNum k.num = some k := by cases k <;> rfl

theorem or_shl (a b i : Nat) (h : b < 2 ^ i) : b ||| (a <<< i) = a * 2 ^ i + b := by
  rw [Nat.or_comm, ← Nat.shiftLeft_add_eq_or_of_lt h, Nat.shiftLeft_eq]

theorem pack_value (k : Kind) (fd st : Nat) (tag : BitVec 32) (h : fd ≤ 0xffffff) :
    k.num ||| (fd <<< 8) ||| ((st &&& 0xf) <<< 4) ||| (tag.toNat <<< 32)
      = k.num + 16 * (st % 16) + 256 * fd + 4294967296 * tag.toNat := by
  have hk := k.num_lt
  have e : st &&& 0xf = st % 16 := Nat.and_two_pow_sub_one_eq_mod st 4
  rw [e]
  rw [show k.num ||| (fd <<< 8) ||| ((st % 16) <<< 4) = (k.num ||| ((st % 16) <<< 4)) ||| (fd <<< 8) by
    rw [Nat.or_assoc, Nat.or_comm (fd <<< 8), ← Nat.or_assoc]]
  rw [or_shl _ k.num 4 (by omega), or_shl fd _ 8 (by omega), or_shl _ _ 32 (by omega)]
  omega

/-- The four parts of the user data, as arithmetic. -/
theorem parts (ud : Nat) : kindOf ud = Kind.ofNum (ud % 16) ∧ stateOf ud = ud / 16 % 16 ∧ fdOf ud = ud / 256 % 16777216 ∧
    tagOf ud = BitVec.ofNat 32 (ud / 4294967296) := by
  refine ⟨?_, ?_, ?_, ?_⟩
  · rw [kindOf, show ud &&& 0xf = ud % 16 from Nat.and_two_pow_sub_one_eq_mod ud 4]
  · rw [stateOf, Nat.shiftRight_eq_div_pow]
    exact Nat.and_two_pow_sub_one_eq_mod _ 4
  · rw [fdOf, Nat.shiftRight_eq_div_pow]
    exact Nat.and_two_pow_sub_one_eq_mod _ 24
  · rw [tagOf, Nat.shiftRight_eq_div_pow]

/-- **C85** Packing and unpacking: kind, descriptor, tag and the four sticky state bits come back. -/
theorem pack_unpack (k : Kind) (fd st : Nat) (tag : BitVec 32) (ud : Nat) (h : pack k fd st tag = some ud) :
    kindOf ud = some k ∧ fdOf ud = fd ∧ stateOf ud = st % 16 ∧ tagOf ud = tag ∧ ud < 2 ^ 64 := by
  unfold pack at h
  split at h
  · rename_i hfd
    rw [pack_value k fd st tag hfd] at h
    injection h with h
    have hk := k.num_lt
    have ht := tag.isLt
    obtain ⟨p1, p2, p3, p4⟩ := parts ud
    refine ⟨?_, ?_, ?_, ?_, by omega⟩
    · rw [p1, show ud % 16 = k.num by omega, Kind.ofNum_num]
    · rw [p3]; omega
    · rw [p2]; omega
    · rw [p4, show ud / 4294967296 = tag.toNat by omega, BitVec.ofNat_toNat, BitVec.setWidth_eq]
  · cases h

theorem pack_some (k : Kind) (fd st : Nat) (tag : BitVec 32) (h : fd ≤ 0xffffff) : ∃ ud, pack k fd st tag = some ud := by
  unfold pack
  rw [if_pos h]
  exact ⟨_, rfl⟩

theorem and_f0 (ud : Nat) : ud &&& 0xf0 = 16 * (ud / 16 % 16) := by
  have h : ud &&& 0xf0 = ((ud >>> 4) &&& 0xf) <<< 4 := by
    apply Nat.eq_of_testBit_eq
    intro i
    rw [Nat.testBit_shiftLeft, Nat.testBit_and, Nat.testBit_and, Nat.testBit_shiftRight]
    by_cases hi : i ≥ 4
    · have e : 4 + (i - 4) = i := by omega
      have e2 : Nat.testBit 240 i = Nat.testBit 15 (i - 4) := by
        have : (240 : Nat) = 15 <<< 4 := rfl
        rw [this, Nat.testBit_shiftLeft]
        simp [hi]
      simp [hi, e, e2]
    · have : i = 0 ∨ i = 1 ∨ i = 2 ∨ i = 3 := by omega
      rcases this with rfl | rfl | rfl | rfl <;> simp [Nat.testBit, Nat.shiftRight_eq_div_pow]
  rw [h, Nat.shiftLeft_eq, Nat.shiftRight_eq_div_pow]
  have := Nat.and_two_pow_sub_one_eq_mod (ud / 2 ^ 4) 4
  simp only [Nat.reducePow, Nat.reduceSub] at this ⊢
  rw [this]; omega

/-- **C85** Writing new state bits changes nothing else. -/
theorem withState_parts (ud st : Nat) (h : st < 16) (hu : ud < 2 ^ 64) : kindOf (withState ud st) = kindOf ud ∧
    fdOf (withState ud st) = fdOf ud ∧ tagOf (withState ud st) = tagOf ud ∧ stateOf (withState ud st) = st ∧
    withState ud st < 2 ^ 64 := by
  have e : withState ud st = ud % 16 + 16 * st + 256 * (ud / 256) := by
    rw [withState, and_f0]
    have e1 : ud - 16 * (ud / 16 % 16) = (ud % 16) ||| ((ud / 256) <<< 8) := by
      rw [or_shl _ _ 8 (by omega)]; omega
    rw [e1, Nat.or_assoc, Nat.or_comm ((ud / 256) <<< 8), ← Nat.or_assoc, or_shl st _ 4 (by omega), or_shl _ _ 8 (by omega)]
    omega
  obtain ⟨p1, p2, p3, p4⟩ := parts ud
  obtain ⟨q1, q2, q3, q4⟩ := parts (withState ud st)
  refine ⟨?_, ?_, ?_, ?_, by rw [e]; omega⟩
  · rw [p1, q1, e]; congr 1; omega
  · rw [p3, q3, e]; omega
  · rw [p4, q4, e]; congr 1; omega
  · rw [q2, e]; omega

theorem SS.ofByte_byte (s : SS) : SS.ofByte s.byte = s := by
  obtain ⟨a, b, c, d, e, f, g, h⟩ := s
  cases a <;> cases b <;> cases c <;> cases d <;> cases e <;> cases f <;> cases g <;> cases h <;> rfl

theorem newState_byte (st : SS) : (newState st).byte < 16 := by
  have h (b : Bool) : b.toNat ≤ 1 := by cases b <;> decide
  have h1 := h (newState st).readable
  have h2 := h (newState st).writeable
  have h3 := h (newState st).readEOF
  have h4 := h (newState st).writeEOF
  have e : (newState st).byte = (newState st).readable.toNat + 2 * (newState st).writeable.toNat
      + 4 * (newState st).readEOF.toNat + 8 * (newState st).writeEOF.toNat := by
    simp [SS.byte, newState]
  omega

example : ∃ ud, pack .socket 77 5 0xdeadbeef#32 = some ud ∧ fdOf ud = 77 := ⟨_, rfl, by decide +kernel⟩

end Verif.Ev
