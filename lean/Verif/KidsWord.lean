import Verif.Kids
import Verif.EvPack
/-! # The four descriptors of a child in one word -/
namespace Verif.Kids
open Verif.Ev (Kind pack kindOf fdOf)

/-- The word holds these descriptors: the pid descriptor, then the three streams. -/
def Fields (w : BitVec 128) (fd : Nat → Nat) : Prop := getPidFd w = fd 0 ∧ ∀ i < 3, getFd w i = fd (i + 1)

theorem mask_bit (b : Nat) : (0x7fffffff#128).getLsbD b = decide (b < 31) := by
  have h : (0x7fffffff#128) = BitVec.ofNat 128 (2 ^ 31 - 1) := rfl
  rw [h, BitVec.getLsbD_ofNat, Nat.testBit_two_pow_sub_one]
  by_cases hb : b < 31
  · simp [hb]; omega
  · simp [hb]

theorem mask32_bit (b : Nat) : (0xffffffff#128).getLsbD b = decide (b < 32) := by
  have h : (0xffffffff#128) = BitVec.ofNat 128 (2 ^ 32 - 1) := rfl
  rw [h, BitVec.getLsbD_ofNat, Nat.testBit_two_pow_sub_one]
  by_cases hb : b < 32
  · simp [hb]; omega
  · simp [hb]

theorem one_bit (b : Nat) : (1#128).getLsbD b = decide (b = 0) := by
  rw [BitVec.getLsbD_one]; simp

/-- The bits of a field. -/
theorem field_bit (w : BitVec 128) (i b : Nat) :
    ((w >>> ((1 + i) * 32)) &&& 0x7fffffff#128).getLsbD b = (w.getLsbD ((1 + i) * 32 + b) && decide (b < 31)) := by
  rw [BitVec.getLsbD_and, mask_bit, BitVec.getLsbD_ushiftRight]

theorem getFd_congr {w w' : BitVec 128} {i : Nat}
    (h : ∀ b < 31, w.getLsbD ((1 + i) * 32 + b) = w'.getLsbD ((1 + i) * 32 + b)) : getFd w i = getFd w' i := by
  unfold getFd
  congr 1
  apply BitVec.eq_of_getLsbD_eq
  intro b _
  rw [field_bit, field_bit]
  by_cases hb : b < 31
  · rw [h b hb]
  · simp [hb]

theorem getPidFd_congr {w w' : BitVec 128} (h : ∀ b < 31, w.getLsbD b = w'.getLsbD b) : getPidFd w = getPidFd w' := by
  unfold getPidFd
  congr 1
  apply BitVec.eq_of_getLsbD_eq
  intro b _
  rw [BitVec.getLsbD_and, BitVec.getLsbD_and, mask_bit]
  by_cases hb : b < 31
  · rw [h b hb]
  · simp [hb]

theorem getFd_zero {w : BitVec 128} {i : Nat} (h : ∀ b < 31, w.getLsbD ((1 + i) * 32 + b) = false) : getFd w i = 0 := by
  rw [getFd_congr (w' := 0#128) (by intro b hb; rw [h b hb]; simp)]
  unfold getFd
  simp

theorem clearFd_bit (w : BitVec 128) (j b : Nat) (hb : b < 128) :
    (clearFd w j).getLsbD b = (w.getLsbD b && !(decide ((1 + j) * 32 ≤ b) && decide (b - (1 + j) * 32 < 32))) := by
  unfold clearFd
  rw [BitVec.getLsbD_and, BitVec.getLsbD_not, BitVec.getLsbD_shiftLeft, mask32_bit]
  by_cases h : (1 + j) * 32 ≤ b
  · simp [hb, h, Nat.not_lt.2 h]
  · simp [hb, h, Nat.lt_of_not_le h]

theorem bit31 (j b : Nat) (hb : b < 128) :
    (1#128 <<< ((1 + j) * 32 + 31)).getLsbD b = decide (b = (1 + j) * 32 + 31) := by
  rw [BitVec.getLsbD_shiftLeft, one_bit]
  by_cases h : b = (1 + j) * 32 + 31
  · subst h; simp [hb]
  · by_cases h' : b < (1 + j) * 32 + 31
    · simp [h, h']
    · simp [h, h']; omega

theorem Fields.clear {w : BitVec 128} {fd : Nat → Nat} (h : Fields w fd) {j : Nat} (hj : j < 3) :
    Fields (clearFd w j) (fun k => if k = j + 1 then 0 else fd k) := by
  refine ⟨?_, fun i hi => ?_⟩
  · rw [getPidFd_congr (w' := w), h.1]
    · simp
    · intro b hb
      rw [clearFd_bit w j b (by omega)]
      have : ¬ (1 + j) * 32 ≤ b := by omega
      simp [this]
  · by_cases e : i = j
    · subst e
      dsimp only
      rw [if_pos rfl]
      apply getFd_zero
      intro b hb
      rw [clearFd_bit w i _ (by omega)]
      have h1 : (1 + i) * 32 ≤ (1 + i) * 32 + b := by omega
      have h2 : (1 + i) * 32 + b - (1 + i) * 32 < 32 := by omega
      rw [decide_eq_true h1, decide_eq_true h2]; simp
    · dsimp only
      rw [if_neg (by omega), ← h.2 i hi]
      apply getFd_congr
      intro b hb
      rw [clearFd_bit w j _ (by omega)]
      have : ¬ ((1 + j) * 32 ≤ (1 + i) * 32 + b ∧ (1 + i) * 32 + b - (1 + j) * 32 < 32) := by omega
      rw [← Bool.decide_and, decide_eq_false this]
      simp

theorem Fields.same {w w' : BitVec 128} {fd : Nat → Nat} (h : Fields w fd)
    (e : ∀ b < 128, b % 32 ≠ 31 → w'.getLsbD b = w.getLsbD b) : Fields w' fd := by
  refine ⟨?_, fun i hi => ?_⟩
  · rw [← h.1]
    exact getPidFd_congr fun b hb => e b (by omega) (by omega)
  · rw [← h.2 i hi]
    exact getFd_congr fun b hb => e _ (by omega) (by omega)

theorem Fields.setAvailable {w : BitVec 128} {fd : Nat → Nat} (h : Fields w fd) (j : Nat) :
    Fields (setAvailable w j) fd := by
  apply h.same
  intro b hb h31
  unfold Kids.setAvailable
  rw [BitVec.getLsbD_or, bit31 j b hb, decide_eq_false (show ¬ b = (1 + j) * 32 + 31 by omega)]
  simp

theorem Fields.clearAvailable {w : BitVec 128} {fd : Nat → Nat} (h : Fields w fd) (j : Nat) :
    Fields (clearAvailable w j) fd := by
  apply h.same
  intro b hb h31
  unfold Kids.clearAvailable
  rw [BitVec.getLsbD_and, BitVec.getLsbD_not, bit31 j b hb, decide_eq_false (show ¬ b = (1 + j) * 32 + 31 by omega)]
  simp [hb]

theorem Fields.forget {w : BitVec 128} {fd : Nat → Nat} (h : Fields w fd) (n j : Nat) : Fields (forget w n j) fd := by
  unfold Kids.forget
  split
  · exact h.clearAvailable j
  · exact h

theorem isAvailable_bit (w : BitVec 128) {j : Nat} (hj : j < 3) : isAvailable w j = w.getLsbD ((1 + j) * 32 + 31) := by
  unfold isAvailable
  cases e : w.getLsbD ((1 + j) * 32 + 31) with
  | true =>
    rw [bne_iff_ne]
    intro h0
    have := congrArg (fun x => x.getLsbD ((1 + j) * 32 + 31)) h0
    simp only [BitVec.getLsbD_and, e, bit31 j _ (show (1 + j) * 32 + 31 < 128 by omega)] at this
    simp at this
  | false =>
    have : w &&& (1#128 <<< ((1 + j) * 32 + 31)) = 0#128 := by
      apply BitVec.eq_of_getLsbD_eq
      intro b hb
      rw [BitVec.getLsbD_and, bit31 j b hb]
      by_cases h : b = (1 + j) * 32 + 31
      · rw [h, e]; simp
      · simp [h]
    rw [this]; rfl

/-- A stream just reported is available. -/
theorem isAvailable_set (w : BitVec 128) {j : Nat} (hj : j < 3) : isAvailable (setAvailable w j) j = true := by
  rw [isAvailable_bit _ hj]
  unfold setAvailable
  rw [BitVec.getLsbD_or, bit31 j _ (by omega)]
  simp

theorem small_bit {n b : Nat} (hn : n ≤ 0xffffff) (hb : 24 ≤ b) : n.testBit b = false := by
  apply Nat.testBit_lt_two_pow
  have : 2 ^ 24 ≤ 2 ^ b := Nat.pow_le_pow_right (by decide) hb
  omega

theorem ofNat_bit {n b : Nat} (hn : n ≤ 0xffffff) : (BitVec.ofNat 128 n).getLsbD b = n.testBit b := by
  rw [BitVec.getLsbD_ofNat]
  by_cases hb : b < 128
  · simp [hb]
  · rw [small_bit hn (by omega)]; simp

theorem packWord_bit {p a b c : Nat} (hp : p ≤ 0xffffff) (ha : a ≤ 0xffffff) (hb : b ≤ 0xffffff) (hc : c ≤ 0xffffff) (j : Nat)
    (hj : j < 128) : (packWord p a b c).getLsbD j =
      (p.testBit j || (decide (32 ≤ j) && a.testBit (j - 32)) || (decide (64 ≤ j) && b.testBit (j - 64)) ||
        (decide (96 ≤ j) && c.testBit (j - 96))) := by
  unfold packWord
  rw [BitVec.getLsbD_or, BitVec.getLsbD_or, BitVec.getLsbD_or, BitVec.getLsbD_shiftLeft, BitVec.getLsbD_shiftLeft,
    BitVec.getLsbD_shiftLeft, ofNat_bit hp, ofNat_bit ha, ofNat_bit hb, ofNat_bit hc]
  have e : ∀ x : Nat, (!decide (j < x)) = decide (x ≤ j) := by intro x; rw [← decide_not]; congr 1; simp
  simp [hj, e]

theorem getFd_of_bits {w : BitVec 128} {i n : Nat} (hn : n ≤ 0xffffff)
    (h : ∀ b < 31, w.getLsbD ((1 + i) * 32 + b) = n.testBit b) : getFd w i = n := by
  unfold getFd
  apply Nat.eq_of_testBit_eq
  intro b
  have := field_bit w i b
  rw [BitVec.getLsbD] at this
  rw [this]
  by_cases hb : b < 31
  · rw [h b hb]; simp [hb]
  · rw [small_bit hn (by omega)]; simp [hb]

theorem Fields.pack {p a b c : Nat} (hp : p ≤ 0xffffff) (ha : a ≤ 0xffffff) (hb : b ≤ 0xffffff) (hc : c ≤ 0xffffff) :
    Fields (packWord p a b c) (fun k => if k = 0 then p else if k = 1 then a else if k = 2 then b else c) := by
  have tb := fun n (hn : n ≤ 0xffffff) j (hj : 24 ≤ j) => small_bit hn hj
  refine ⟨?_, fun i hi => ?_⟩
  · unfold getPidFd
    apply Nat.eq_of_testBit_eq
    intro j
    have e : ((packWord p a b c) &&& 0x7fffffff#128).getLsbD j = ((packWord p a b c).getLsbD j && decide (j < 31)) := by
      rw [BitVec.getLsbD_and, mask_bit]
    rw [BitVec.getLsbD] at e
    rw [e]
    by_cases hj : j < 31
    · rw [packWord_bit hp ha hb hc j (by omega)]
      have h1 : ¬ 32 ≤ j := by omega
      have h2 : ¬ 64 ≤ j := by omega
      have h3 : ¬ 96 ≤ j := by omega
      simp [hj, h1, h2, h3]
    · simp [hj, tb p hp j (by omega)]
  · have : i = 0 ∨ i = 1 ∨ i = 2 := by omega
    rcases this with rfl | rfl | rfl
    · refine getFd_of_bits (by simpa using ha) fun j hj => ?_
      rw [packWord_bit hp ha hb hc _ (by omega), tb p hp _ (by omega)]
      have h2 : ¬ 64 ≤ (1 + 0) * 32 + j := by omega
      have h3 : ¬ 96 ≤ (1 + 0) * 32 + j := by omega
      have e : (1 + 0) * 32 + j - 32 = j := by omega
      rw [decide_eq_false h2, decide_eq_false h3, e]; simp
    · refine getFd_of_bits (by simpa using hb) fun j hj => ?_
      rw [packWord_bit hp ha hb hc _ (by omega), tb p hp _ (by omega), tb a ha _ (by omega)]
      have h3 : ¬ 96 ≤ (1 + 1) * 32 + j := by omega
      have e : (1 + 1) * 32 + j - 64 = j := by omega
      rw [decide_eq_false h3, e]; simp
    · refine getFd_of_bits (by simpa using hc) fun j hj => ?_
      rw [packWord_bit hp ha hb hc _ (by omega), tb p hp _ (by omega), tb a ha _ (by omega), tb b hb _ (by omega)]
      have e : (1 + 2) * 32 + j - 96 = j := by omega
      rw [e]; simp

/-! ## The user data of a child's descriptors -/

/-- The user data of descriptor `k` (0: the pid descriptor, 1 to 3: the streams) of the child in a slot. -/
def udOf (slot k : Nat) : Nat := 256 * slot + (4 + k)

/-- The kinds. -/
def kindAt (k : Nat) : Kind := if k = 0 then .pidfd else if k = 1 then .stdin else if k = 2 then .stdout else .stderr

theorem pack_pidfd {slot : Nat} (h : slot ≤ 0xffffff) : pack .pidfd slot 0 0 = some (udOf slot 0) := by
  unfold pack
  rw [if_pos h, Ev.pack_value _ _ _ _ h]
  congr 1
  show Kind.pidfd.num + _ + _ + _ = _
  simp [udOf, Kind.num]
  omega

theorem ud_parts {slot k : Nat} (h : slot ≤ 0xffffff) (hk : k < 4) :
    kindOf (udOf slot k) = some (kindAt k) ∧ fdOf (udOf slot k) = slot := by
  obtain ⟨h1, _, h3, _⟩ := Ev.parts (udOf slot k)
  refine ⟨?_, ?_⟩
  · rw [h1]
    have : udOf slot k % 16 = 4 + k := by unfold udOf; omega
    rw [this]
    have : k = 0 ∨ k = 1 ∨ k = 2 ∨ k = 3 := by omega
    rcases this with rfl | rfl | rfl | rfl <;> rfl
  · rw [h3]; unfold udOf; omega

end Verif.Kids
