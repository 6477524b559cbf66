import Verif.Usage
/-!
# C32: usage masks move in and out of nested fields without loss
-/
namespace Verif.Usage

theorem tags_bit (w i : Nat) (h : 4 ≤ w) : (tags w).getLsbD i = decide (i < 3) := by
  unfold tags
  rw [BitVec.getLsbD_ofNat]
  by_cases h3 : i < 3
  · have : i = 0 ∨ i = 1 ∨ i = 2 := by omega
    rcases this with rfl | rfl | rfl <;> simp [Nat.testBit_zero, Nat.testBit_succ] <;> omega
  · have : (7 : Nat).testBit i = false := by
      apply Nat.testBit_lt_two_pow
      calc 7 < 2 ^ 3 := by decide
        _ ≤ 2 ^ i := Nat.pow_le_pow_right (by decide) (by omega)
    simp [this, h3]

theorem usage_bit (w i : Nat) (h : 4 ≤ w) : (usageMask w).getLsbD i = decide (3 ≤ i ∧ i < w) := by
  unfold usageMask
  rw [BitVec.getLsbD_not, tags_bit w i h]
  by_cases h1 : i < w <;> by_cases h2 : i < 3 <;> simp [h1, h2] <;> omega

theorem reduce_eq (w o : Nat) (h : 4 ≤ w) : reduce w o = o % (w - 3) := by
  induction o using Nat.strongRecOn with
  | _ o ih =>
    rw [reduce, dif_neg (by omega)]
    unfold bitsize
    split
    · rename_i hge
      rw [show reduce w (o - (w - 3)) = (o - (w - 3)) % (w - 3) from ih _ (by omega)]
      exact (Nat.mod_eq_sub_mod hge).symm
    · exact (Nat.mod_eq_of_lt (by omega)).symm

/-- What `USAGE_shiftLeft` does to each bit: tags stay; usage bits rotate up within their field. -/
theorem shiftLeft_bit {w : Nat} (q : BitVec w) (o i : Nat) (h : 4 ≤ w) :
    (shiftLeft q o).getLsbD i =
      if i < 3 then q.getLsbD i
      else if i < w then q.getLsbD (3 + (i - 3 + (w - 3 - o % (w - 3))) % (w - 3)) else false := by
  unfold shiftLeft
  simp only [reduce_eq w o h]
  have hr : o % (w - 3) < w - 3 := Nat.mod_lt _ (by omega)
  generalize o % (w - 3) = r at hr ⊢
  simp only [BitVec.getLsbD_or, BitVec.getLsbD_and, BitVec.getLsbD_shiftLeft, BitVec.getLsbD_ushiftRight,
    tags_bit w _ h, usage_bit w _ h]
  by_cases h3 : i < 3
  · have : ¬ (3 ≤ i ∧ i < w) := by omega
    simp [h3, this]
  · by_cases hw : i < w
    · by_cases hir : i - 3 < r
      · -- comes from the top
        have e : (i - 3 + (w - 3 - r)) % (w - 3) = i - 3 + (w - 3 - r) := Nat.mod_eq_of_lt (by omega)
        rw [e]
        have e2 : 3 + (i - 3 + (w - 3 - r)) = bitsize w - r + i := by unfold bitsize; omega
        rw [e2]
        by_cases g1 : i < r
        · have d3 : (3 ≤ bitsize w - r + i ∧ bitsize w - r + i < w) := by unfold bitsize; omega
          have d1 : 3 ≤ i ∧ i < w := by omega
          simp [h3, hw, g1, d3, d1]
        · have g2 : ¬ (3 ≤ i - r ∧ i - r < w) := by omega
          have g3 : (3 ≤ bitsize w - r + i ∧ bitsize w - r + i < w) := by unfold bitsize; omega
          have d1 : 3 ≤ i ∧ i < w := by omega
          simp [h3, hw, g1, g2, g3, d1]
      · have e : (i - 3 + (w - 3 - r)) % (w - 3) = i - 3 - r := by
          have : i - 3 + (w - 3 - r) = (i - 3 - r) + (w - 3) := by omega
          rw [this, Nat.add_mod_right, Nat.mod_eq_of_lt (by omega)]
        rw [e]
        have e2 : 3 + (i - 3 - r) = i - r := by omega
        rw [e2]
        have g1 : ¬ i < r := by omega
        have g2 : 3 ≤ i - r ∧ i - r < w := by omega
        have g3 : ¬ (3 ≤ bitsize w - r + i ∧ bitsize w - r + i < w) := by unfold bitsize; omega
        have d1 : 3 ≤ i ∧ i < w := by omega
        simp [h3, hw, g1, g2, g3, d1]
    · simp [h3, hw]

theorem shiftRight_bit {w : Nat} (q : BitVec w) (o i : Nat) (h : 4 ≤ w) :
    (shiftRight q o).getLsbD i =
      if i < 3 then q.getLsbD i
      else if i < w then q.getLsbD (3 + (i - 3 + o % (w - 3)) % (w - 3)) else false := by
  unfold shiftRight
  simp only [reduce_eq w o h]
  have hr : o % (w - 3) < w - 3 := Nat.mod_lt _ (by omega)
  generalize o % (w - 3) = r at hr ⊢
  simp only [BitVec.getLsbD_or, BitVec.getLsbD_and, BitVec.getLsbD_shiftLeft, BitVec.getLsbD_ushiftRight,
    tags_bit w _ h, usage_bit w _ h]
  by_cases h3 : i < 3
  · have : ¬ (3 ≤ i ∧ i < w) := by omega
    simp [h3, this]
  · by_cases hw : i < w
    · have d1 : 3 ≤ i ∧ i < w := by omega
      by_cases hir : i + r < w
      · have e : (i - 3 + r) % (w - 3) = i - 3 + r := Nat.mod_eq_of_lt (by omega)
        rw [e]
        have e2 : 3 + (i - 3 + r) = r + i := by omega
        rw [e2]
        have g2 : 3 ≤ r + i ∧ r + i < w := by omega
        have g3 : ¬ (3 ≤ i - (bitsize w - r) ∧ i - (bitsize w - r) < w) := by unfold bitsize; omega
        simp [h3, hw, g2, g3, d1]
      · have e : (i - 3 + r) % (w - 3) = i + r - w := by
          have : i - 3 + r = (i + r - w) + (w - 3) := by omega
          rw [this, Nat.add_mod_right, Nat.mod_eq_of_lt (by omega)]
        rw [e]
        have e2 : 3 + (i + r - w) = i - (bitsize w - r) := by unfold bitsize; omega
        rw [e2]
        have g2 : ¬ (3 ≤ r + i ∧ r + i < w) := by omega
        have g3 : 3 ≤ i - (bitsize w - r) ∧ i - (bitsize w - r) < w := by unfold bitsize; omega
        have g4 : ¬ i < bitsize w - r := by unfold bitsize; omega
        simp [h3, hw, g2, g3, g4, d1]
    · simp [h3, hw]

/-- **C32.** Moving flags up to the enclosing struct's level and back down - or the other way round - restores every flag,
for every offset and every mask (`w = 32` is `Quals`). -/
theorem shift_inverse {w : Nat} (h : 4 ≤ w) (q : BitVec w) (o : Nat) :
    shiftRight (shiftLeft q o) o = q ∧ shiftLeft (shiftRight q o) o = q := by
  have hr : o % (w - 3) < w - 3 := Nat.mod_lt _ (by omega)
  constructor
  · apply BitVec.eq_of_getLsbD_eq
    intro i hi
    rw [shiftRight_bit _ _ _ h]
    by_cases h3 : i < 3
    · rw [if_pos h3, shiftLeft_bit _ _ _ h, if_pos h3]
    · rw [if_neg h3, if_pos hi, shiftLeft_bit _ _ _ h]
      have hm : (i - 3 + o % (w - 3)) % (w - 3) < w - 3 := Nat.mod_lt _ (by omega)
      rw [if_neg (by omega), if_pos (by omega)]
      congr 1
      generalize o % (w - 3) = r at *
      rw [show 3 + (i - 3 + r) % (w - 3) - 3 = (i - 3 + r) % (w - 3) by omega, Nat.mod_add_mod]
      rw [show i - 3 + r + (w - 3 - r) = i - 3 + (w - 3) by omega, Nat.add_mod_right, Nat.mod_eq_of_lt (by omega)]
      omega
  · apply BitVec.eq_of_getLsbD_eq
    intro i hi
    rw [shiftLeft_bit _ _ _ h]
    by_cases h3 : i < 3
    · rw [if_pos h3, shiftRight_bit _ _ _ h, if_pos h3]
    · rw [if_neg h3, if_pos hi, shiftRight_bit _ _ _ h]
      have hm : (i - 3 + (w - 3 - o % (w - 3))) % (w - 3) < w - 3 := Nat.mod_lt _ (by omega)
      rw [if_neg (by omega), if_pos (by omega)]
      congr 1
      generalize o % (w - 3) = r at *
      rw [show 3 + (i - 3 + (w - 3 - r)) % (w - 3) - 3 = (i - 3 + (w - 3 - r)) % (w - 3) by omega, Nat.mod_add_mod]
      rw [show i - 3 + (w - 3 - r) + r = i - 3 + (w - 3) by omega, Nat.add_mod_right, Nat.mod_eq_of_lt (by omega)]
      omega

/-- **C32 (flag placement).** As long as it fits, flag number `k` of a field at flat offset `o` is flag number `o + k` of
the struct. -/
theorem field_flag_position {w : Nat} (q : BitVec w) (o k : Nat) (hk : 3 + o + k < w) :
    (structFromField q o).getLsbD (3 + (o + k)) = q.getLsbD (3 + k) := by
  unfold structFromField
  rw [shiftLeft_bit _ _ _ (by omega), if_neg (by omega), if_pos (by omega)]
  congr 2
  rw [Nat.mod_eq_of_lt (show o < w - 3 by omega)]
  rw [show 3 + (o + k) - 3 + (w - 3 - o) = k + (w - 3) by omega, Nat.add_mod_right, Nat.mod_eq_of_lt (by omega)]

theorem maxUsage_bit (w c i : Nat) (h : 4 ≤ w) : (getMaxUsage w c).getLsbD i = decide (3 ≤ i ∧ i < w ∧ i < 3 + c) := by
  unfold getMaxUsage
  split
  · rename_i hc
    rw [usage_bit w i h]
    unfold bitsize at hc
    congr 1
    apply propext
    omega
  · rename_i hc
    unfold bitsize at *
    rw [BitVec.getLsbD_and, BitVec.getLsbD_ushiftRight, usage_bit w _ h, usage_bit w _ h]
    rw [Bool.eq_iff_iff]
    simp
    omega

/-- **C32 (lossless).** What a field of `c` flat members at offset `o` reads back from the struct's usage is the usage it
put there; its own tags are kept. -/
theorem field_roundtrip {w : Nat} (h : 4 ≤ w) (q f : BitVec w) (o c : Nat)
    (hf : ∀ i, f.getLsbD i = true → 3 ≤ i ∧ i < 3 + c) :
    fieldFromStruct q (structFromField f o) o c = (q &&& tags w) ||| f := by
  apply BitVec.eq_of_getLsbD_eq
  intro i hi
  unfold fieldFromStruct structFromField
  simp only [BitVec.getLsbD_and, BitVec.getLsbD_or, maxUsage_bit w c i h, tags_bit w i h]
  rw [shiftRight_bit _ _ _ h]
  by_cases h3 : i < 3
  · have hfi : f.getLsbD i = false := by
      cases e : f.getLsbD i with
      | false => rfl
      | true => have := hf i e; omega
    have hsi : (shiftLeft f o).getLsbD i = false := by rw [shiftLeft_bit _ _ _ h, if_pos h3, hfi]
    have hu : (usageMask w).getLsbD i = false := by rw [usage_bit w i h]; simp; omega
    simp only [if_pos h3, BitVec.getLsbD_or, BitVec.getLsbD_and, BitVec.getLsbD_not, hfi, hsi, hu]
    simp [h3, hi]
  · rw [if_neg h3, if_pos hi]
    have hm : (i - 3 + o % (w - 3)) % (w - 3) < w - 3 := Nat.mod_lt _ (by omega)
    have hr : o % (w - 3) < w - 3 := Nat.mod_lt _ (by omega)
    have hinv : (shiftLeft f o).getLsbD (3 + (i - 3 + o % (w - 3)) % (w - 3)) = f.getLsbD i := by
      have := congrArg (fun x => x.getLsbD i) (shift_inverse h f o).1
      simp only [shiftRight_bit _ _ _ h, if_neg h3, if_pos hi] at this
      exact this
    rw [BitVec.getLsbD_or, hinv, BitVec.getLsbD_and, BitVec.getLsbD_not, usage_bit w _ h]
    cases e : f.getLsbD i with
    | false => simp [h3]
    | true =>
      have := hf i e
      simp [this, hi, h3]

/-- **C32 (separation).** The usage regions of two fields whose flat ranges are disjoint and fit the mask are disjoint. -/
theorem regions_disjoint {w : Nat} (o₁ c₁ o₂ c₂ : Nat) (h1 : o₁ + c₁ ≤ o₂) (h2 : o₂ + c₂ ≤ w - 3) (hw : 4 ≤ w)
    (hc : 0 < c₁ ∧ 0 < c₂) :
    getRegionUsage w o₁ c₁ &&& getRegionUsage w o₂ c₂ = 0#w := by
  apply BitVec.eq_of_getLsbD_eq
  intro i hi
  unfold getRegionUsage
  rw [BitVec.getLsbD_and, shiftLeft_bit _ _ _ hw, shiftLeft_bit _ _ _ hw]
  by_cases h3 : i < 3
  · simp only [if_pos h3, maxUsage_bit w _ _ hw]
    simp; omega
  · simp only [if_neg h3, if_pos hi, maxUsage_bit w _ _ hw]
    rw [Nat.mod_eq_of_lt (show o₁ < w - 3 by omega), Nat.mod_eq_of_lt (show o₂ < w - 3 by omega)]
    have key : ∀ o, o < w - 3 → (i - 3 + (w - 3 - o)) % (w - 3) = if o ≤ i - 3 then i - 3 - o else i - 3 + (w - 3 - o) := by
      intro o ho
      split
      · rw [show i - 3 + (w - 3 - o) = (i - 3 - o) + (w - 3) by omega, Nat.add_mod_right, Nat.mod_eq_of_lt (by omega)]
      · exact Nat.mod_eq_of_lt (by omega)
    rw [key _ (by omega), key _ (by omega)]
    simp
    split <;> split <;> omega

example : shiftLeft (0xb#32) 3 = 0x43#32 := by decide +kernel
example : fieldFromStruct 1#32 (structFromField 0x18#32 5) 5 2 = 0x19#32 := by decide +kernel
example : ∀ i, i < 32 → (0x18#32 : BitVec 32).getLsbD i = true → 3 ≤ i ∧ i < 3 + 2 := by decide
example : getRegionUsage 32 2 3 = 0xe0#32 := by decide +kernel

end Verif.Usage
