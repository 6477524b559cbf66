import Verif.BitSet
import Mathlib.Data.Set.Card
import Mathlib.Tactic.SplitIfs
import Mathlib.Tactic.ByContra
/-!
# BitSet is a set of naturals (C15), and its algebra is set algebra (C16)

The specification is a mathematical set of natural numbers.  `Mem d i` reads bit `i` of the byte array, `Rep d S` says
that the array represents the set `S`: the bits are exactly the members and there is no trailing zero byte.
-/
namespace Verif.BitSet

/-- Bit `i` of the byte array. -/
def Mem (d : Data) (i : Nat) : Prop := (d[i / 8]?.getD 0).getLsbD (i % 8) = true

/-- The array has no trailing zero byte. -/
def Trimmed (d : Data) : Prop := ∀ b, d.getLast? = some b → b ≠ 0

/-- The array represents the set `S`. -/
structure Rep (d : Data) (S : Set Nat) : Prop where
  mem : ∀ i, Mem d i ↔ i ∈ S
  trimmed : Trimmed d

/-! ## Bits -/

theorem mask_getLsbD (k j : Nat) (hk : k < 8) (hj : j < 8) : (1#8 <<< k).getLsbD j = decide (j = k) := by
  have h : ∀ k : Fin 8, ∀ j : Fin 8, (1#8 <<< k.val).getLsbD j.val = decide (j.val = k.val) := by decide
  exact h ⟨k, hk⟩ ⟨j, hj⟩

theorem byte_ext {a b : BitVec 8} (h : ∀ j < 8, a.getLsbD j = b.getLsbD j) : a = b := BitVec.eq_of_getLsbD_eq h

theorem byte_ne_zero {a : BitVec 8} : a ≠ 0 ↔ ∃ j < 8, a.getLsbD j = true := by
  constructor
  · intro h
    by_contra hc
    apply h
    apply byte_ext
    intro j hj
    have : ¬ a.getLsbD j = true := fun h => hc ⟨j, hj, h⟩
    simpa using this
  · rintro ⟨j, hj, h⟩ rfl
    simp at h

theorem and_mask_ne (a : BitVec 8) (k : Nat) (hk : k < 8) : a &&& (1#8 <<< k) ≠ 0 ↔ a.getLsbD k = true := by
  rw [byte_ne_zero]
  constructor
  · rintro ⟨j, hj, h⟩
    rw [BitVec.getLsbD_and, mask_getLsbD k j hk hj] at h
    simp at h
    obtain ⟨h1, rfl⟩ := h
    exact h1
  · intro h
    exact ⟨k, hk, by rw [BitVec.getLsbD_and, mask_getLsbD k k hk hk, h]; simp⟩

/-! ## Index arithmetic -/

theorem toInt_ofNat' (i : Nat) (h : i < 2 ^ 31) : (BitVec.ofNat 32 i).toInt = i := by
  rw [BitVec.toInt_eq_toNat_cond, BitVec.toNat_ofNat]
  split_ifs <;> omega

theorem and_intMin (x : BitVec 32) (h : x.msb = false) : x &&& intMin = 0#32 := by
  apply BitVec.eq_of_getLsbD_eq
  intro j hj
  rw [BitVec.getLsbD_and]
  unfold intMin
  rw [BitVec.getLsbD_intMin]
  by_cases hj' : j = 31
  · subst hj'
    rw [BitVec.msb_eq_getLsbD_last] at h
    simp at h
    simp [h]
  · have : ¬ (31 = j) := fun h => hj' h.symm
    simp [hj']

theorem msb_ofNat (i : Nat) (h : i < 2 ^ 31) : (BitVec.ofNat 32 i).msb = false := by
  rw [BitVec.msb_eq_decide]
  simp
  omega

theorem bucketOf_ofNat (i : Nat) (h : i < 2 ^ 31) : bucketOf (BitVec.ofNat 32 i) = (i / 8 : Nat) := by
  unfold bucketOf
  rw [and_intMin _ (msb_ofNat i h), BitVec.or_zero, BitVec.toInt_sshiftRight, toInt_ofNat' i h]
  rw [Int.shiftRight_eq_div_pow]
  omega

theorem bucketOf_neg (x : BitVec 32) (h : x.toInt < 0) : bucketOf x < 0 := by
  unfold bucketOf
  have hm : x.msb = true := by rw [BitVec.msb_eq_toInt]; simpa using h
  have : ((x.sshiftRight 3) ||| (x &&& intMin)).msb = true := by
    rw [BitVec.msb_or, BitVec.msb_sshiftRight, hm]; rfl
  rw [BitVec.msb_eq_toInt] at this
  simpa using this

theorem bit_ofNat (i : Nat) : (BitVec.ofNat 32 i &&& 7#32).toNat = i % 8 := by
  rw [BitVec.toNat_and]
  have : (7#32).toNat = 2 ^ 3 - 1 := rfl
  rw [this, Nat.and_two_pow_sub_one_eq_mod, BitVec.toNat_ofNat]
  omega

theorem maskOf_ofNat (i : Nat) : maskOf (BitVec.ofNat 32 i) = 1#8 <<< (i % 8) := by
  unfold maskOf; rw [bit_ofNat]


/-! ## Bytes -/

/-- Byte `k`, zero past the end. -/
def byteAt (d : Data) (k : Nat) : BitVec 8 := d[k]?.getD 0

theorem Mem_iff (d : Data) (i : Nat) : Mem d i ↔ (byteAt d (i / 8)).getLsbD (i % 8) = true := Iff.rfl

theorem byteAt_of_le {d : Data} {k : Nat} (h : d.length ≤ k) : byteAt d k = 0 := by
  unfold byteAt; rw [List.getElem?_eq_none h]; rfl

theorem get_nat {d : Data} {k : Nat} (h : k < d.length) : get d (k : Int) = some (byteAt d k) := by
  unfold get byteAt
  have : ¬ ((k : Int) < 0) := by omega
  simp [this, h]

theorem put_nat {d : Data} {k : Nat} (b : BitVec 8) (h : k < d.length) : put d (k : Int) b = some (d.set k b) := by
  unfold put
  have : ¬ ((k : Int) < 0) := by omega
  simp [this, h]

theorem byteAt_set {d : Data} {k : Nat} (b : BitVec 8) (h : k < d.length) (j : Nat) :
    byteAt (d.set k b) j = if j = k then b else byteAt d j := by
  unfold byteAt
  rw [List.getElem?_set]
  by_cases hj : k = j
  · subst hj; simp [h]
  · have : ¬ j = k := fun e => hj e.symm
    simp [hj, this]

theorem byteAt_grow (d : Data) (n : Int) (j : Nat) : byteAt (grow d n) j = byteAt d j := by
  unfold byteAt grow
  rw [List.getElem?_append]
  split
  · rfl
  · next h =>
    rw [List.getElem?_eq_none (l := d) (by omega), List.getElem?_replicate]
    split <;> rfl

theorem grow_length (d : Data) (n : Int) : (grow d n).length = max d.length n.toNat := by
  unfold grow; simp; omega

theorem byteAt_take (d : Data) (n j : Nat) : byteAt (d.take n) j = if j < n then byteAt d j else 0 := by
  unfold byteAt
  rw [List.getElem?_take]
  split <;> rfl

theorem trimmed_iff {d : Data} : Trimmed d ↔ (d.length = 0 ∨ byteAt d (d.length - 1) ≠ 0) := by
  unfold Trimmed byteAt
  rw [List.getLast?_eq_getElem?]
  cases hd : d with
  | nil => simp
  | cons a t =>
    have : (a :: t).length - 1 < (a :: t).length := by simp
    rw [List.getElem?_eq_getElem this]
    simp

theorem mem_ext_bytes {d e : Data} (h : ∀ i, Mem d i ↔ Mem e i) (k : Nat) : byteAt d k = byteAt e k := by
  apply byte_ext
  intro j hj
  have := h (8 * k + j)
  rw [Mem_iff, Mem_iff, show (8 * k + j) / 8 = k by omega, show (8 * k + j) % 8 = j by omega] at this
  exact Bool.eq_iff_iff.2 this

theorem canonical_le {d e : Data} (ht : Trimmed e) (h : ∀ k, byteAt d k = byteAt e k) : e.length ≤ d.length := by
  rcases trimmed_iff.1 ht with h0 | h1
  · omega
  · by_contra hc
    exact h1 (by rw [← h, byteAt_of_le (by omega)])

theorem bytes_ext {d e : Data} (hl : d.length = e.length) (h : ∀ k, byteAt d k = byteAt e k) : d = e := by
  apply List.ext_getElem hl
  intro k h1 h2
  have := h k
  unfold byteAt at this
  simpa [h1, h2] using this

theorem fitEnd_le (d : Data) (n : Nat) : fitEnd d n ≤ n := by
  induction n with
  | zero => exact Nat.le_refl _
  | succ n ih => unfold fitEnd; split <;> omega

theorem fitEnd_spec (d : Data) (n : Nat) : (∀ j, fitEnd d n ≤ j → j < n → byteAt d j = 0) ∧
    (fitEnd d n = 0 ∨ byteAt d (fitEnd d n - 1) ≠ 0) := by
  induction n with
  | zero => exact ⟨fun j _ h => absurd h (by omega), Or.inl rfl⟩
  | succ n ih =>
    unfold fitEnd
    split
    · next h => exact ⟨fun j h1 h2 => by omega, Or.inr h⟩
    · next h =>
      refine ⟨fun j h1 h2 => ?_, ih.2⟩
      by_cases hj : j = n
      · subst hj; exact not_not.1 h
      · exact ih.1 j h1 (by omega)

theorem shrinkToFit_byteAt (d : Data) (j : Nat) : byteAt (shrinkToFit d) j = byteAt d j := by
  unfold shrinkToFit shrink
  rw [byteAt_take]
  split
  · rfl
  · next h =>
    by_cases hj : j < d.length
    · exact ((fitEnd_spec d d.length).1 j (by simpa using h) hj).symm
    · exact (byteAt_of_le (by omega)).symm

theorem shrinkToFit_length (d : Data) : (shrinkToFit d).length = fitEnd d d.length := by
  unfold shrinkToFit shrink
  have := fitEnd_le d d.length
  simp; omega

theorem shrinkToFit_trimmed (d : Data) : Trimmed (shrinkToFit d) := by
  rw [trimmed_iff, shrinkToFit_length, shrinkToFit_byteAt]
  exact (fitEnd_spec d d.length).2

theorem Mem_shrinkToFit (d : Data) (i : Nat) : Mem (shrinkToFit d) i ↔ Mem d i := by
  rw [Mem_iff, Mem_iff, shrinkToFit_byteAt]

/-! ## C15: the element operations -/

theorem i8_eq {i j : Nat} (h1 : i / 8 = j / 8) (h2 : i % 8 = j % 8) : i = j := by omega

/-- Two arrays that represent the same set are equal. -/
theorem C15_canonical {d e : Data} {S : Set Nat} (hd : Rep d S) (he : Rep e S) : d = e := by
  have hb : ∀ k, byteAt d k = byteAt e k := mem_ext_bytes fun i => (hd.mem i).trans (he.mem i).symm
  have h1 := canonical_le he.trimmed hb
  have h2 := canonical_le hd.trimmed fun k => (hb k).symm
  exact bytes_ext (by omega) hb

theorem Rep_empty : Rep [] ∅ := ⟨fun i => by simp [Mem], fun b h => by simp at h⟩

theorem has_ok (d : Data) (i : Nat) (hi : i < 2 ^ 31) : ∃ r, has d (BitVec.ofNat 32 i) = some r ∧ (r = true ↔ Mem d i) := by
  unfold has
  simp only
  rw [bucketOf_ofNat i hi, maskOf_ofNat]
  split
  · next h =>
    rw [get_nat (by omega)]
    refine ⟨_, rfl, ?_⟩
    rw [decide_eq_true_iff, and_mask_ne _ _ (Nat.mod_lt _ (by omega)), Mem_iff]
  · next h =>
    refine ⟨_, rfl, ?_⟩
    rw [Mem_iff, byteAt_of_le (by omega)]
    simp

theorem add_ok (d : Data) (i : Nat) (hi : i < 2 ^ 31) (ht : Trimmed d) :
    ∃ d' r, add d (BitVec.ofNat 32 i) = some (d', r) ∧ (∀ j, Mem d' j ↔ j = i ∨ Mem d j) ∧ Trimmed d' ∧
      (r = true ↔ ¬ Mem d i) := by
  unfold add
  simp only
  rw [bucketOf_ofNat i hi, maskOf_ofNat]
  generalize hd1 : (if (d.length : Int) ≤ ((i / 8 : Nat) : Int) then grow d (((i / 8 : Nat) : Int) + 1) else d) = d1
  have hlen : d1.length = max d.length (i / 8 + 1) := by
    rw [← hd1]
    split
    · rw [grow_length]; omega
    · omega
  have hb : ∀ k, byteAt d1 k = byteAt d k := by
    intro k; rw [← hd1]; split
    · exact byteAt_grow _ _ _
    · rfl
  have hk : i / 8 < d1.length := by omega
  have hm : i % 8 < 8 := Nat.mod_lt _ (by omega)
  rw [get_nat hk]
  simp only
  rw [put_nat _ hk]
  refine ⟨_, _, rfl, ?_, ?_, ?_⟩
  · intro j
    rw [Mem_iff, Mem_iff, byteAt_set _ hk]
    split
    · next h =>
      rw [BitVec.getLsbD_or, mask_getLsbD _ _ hm (Nat.mod_lt _ (by omega)), hb, ← h]
      rw [Bool.or_eq_true, decide_eq_true_iff, or_comm]
      constructor
      · rintro (h' | h')
        · exact Or.inl (i8_eq h h')
        · exact Or.inr h'
      · rintro (h' | h')
        · exact Or.inl (by rw [h'])
        · exact Or.inr h'
    · next h =>
      rw [hb]
      constructor
      · exact Or.inr
      · rintro (h' | h')
        · exact absurd (by rw [h']) h
        · exact h'
  · rw [trimmed_iff, List.length_set]
    right
    rw [byteAt_set _ hk, hb, hb]
    split
    · rw [byte_ne_zero]
      exact ⟨i % 8, hm, by rw [BitVec.getLsbD_or, mask_getLsbD _ _ hm hm]; simp⟩
    · next h =>
      rcases trimmed_iff.1 ht with h0 | h1
      · exact absurd (by omega) h
      · rw [show d1.length - 1 = d.length - 1 by omega]; exact h1
  · rw [decide_eq_true_iff, hb, Mem_iff, ← and_mask_ne _ _ hm, not_not]

theorem remove_ok (d : Data) (i : Nat) (hi : i < 2 ^ 31) (ht : Trimmed d) :
    ∃ d' r, remove d (BitVec.ofNat 32 i) = some (d', r) ∧ (∀ j, Mem d' j ↔ j ≠ i ∧ Mem d j) ∧ Trimmed d' ∧
      (r = true ↔ Mem d i) := by
  have hm : i % 8 < 8 := Nat.mod_lt _ (by omega)
  unfold remove
  simp only
  rw [bucketOf_ofNat i hi, maskOf_ofNat]
  split
  · next h =>
    have hk : i / 8 < d.length := by omega
    rw [get_nat hk]
    simp only
    split
    · next h1 =>
      have hmem := (and_mask_ne _ _ hm).1 h1
      rw [put_nat _ hk]
      simp only
      have hmem' : ∀ j, Mem (d.set (i / 8) (byteAt d (i / 8) &&& ~~~(1#8 <<< (i % 8)))) j ↔ j ≠ i ∧ Mem d j := by
        intro j
        have hmj : j % 8 < 8 := Nat.mod_lt _ (by omega)
        rw [Mem_iff, Mem_iff, byteAt_set _ hk]
        split
        · next h =>
          rw [BitVec.getLsbD_and, BitVec.getLsbD_not, mask_getLsbD _ _ hm hmj, ← h]
          simp [hmj]
          rw [and_comm]
          constructor
          · rintro ⟨h1, h2⟩; exact ⟨fun e => h1 (by rw [e]), h2⟩
          · rintro ⟨h1, h2⟩; exact ⟨fun e => h1 (i8_eq h e), h2⟩
        · next h =>
          exact ⟨fun h' => ⟨fun e => h (by rw [e]), h'⟩, fun h' => h'.2⟩
      split
      · next hc =>
        refine ⟨_, _, rfl, ?_, shrinkToFit_trimmed _, ?_⟩
        · intro j; rw [Mem_shrinkToFit]; exact hmem' j
        · simp [Mem_iff, hmem]
      · next hc =>
        refine ⟨_, _, rfl, hmem', ?_, ?_⟩
        · rw [trimmed_iff, List.length_set]
          right
          rw [byteAt_set _ hk]
          rcases trimmed_iff.1 ht with h0 | h0
          · omega
          split
          · next hl =>
            -- the byte cleared is the last one: it was not the mask alone
            have hne : byteAt d (i / 8) ≠ 1#8 <<< (i % 8) := by
              intro e; exact hc ⟨e, by rw [List.length_set]; omega⟩
            by_contra hz
            apply hne
            apply byte_ext
            intro j hj
            rw [mask_getLsbD _ _ hm hj]
            by_cases hjm : j = i % 8
            · subst hjm; simpa using hmem
            · have := congrArg (fun b => b.getLsbD j) hz
              simp only [BitVec.getLsbD_and, BitVec.getLsbD_not, mask_getLsbD _ _ hm hj] at this
              simpa [hj, hjm] using this
          · exact h0
        · simp [Mem_iff, hmem]
    · next h1 =>
      have hmem : ¬ Mem d i := fun h => h1 ((and_mask_ne _ _ hm).2 h)
      refine ⟨_, _, rfl, ?_, ht, by simp [hmem]⟩
      intro j
      exact ⟨fun h => ⟨fun e => hmem (e ▸ h), h⟩, fun h => h.2⟩
  · next h =>
    have hmem : ¬ Mem d i := by rw [Mem_iff, byteAt_of_le (by omega)]; simp
    refine ⟨_, _, rfl, ?_, ht, by simp [hmem]⟩
    intro j
    exact ⟨fun h => ⟨fun e => hmem (e ▸ h), h⟩, fun h => h.2⟩

theorem ff_shift_getLsbD (k j : Nat) (hk : k < 8) (hj : j < 8) : (0xff#8 <<< k).getLsbD j = decide (k ≤ j) := by
  have h : ∀ k : Fin 8, ∀ j : Fin 8, (0xff#8 <<< k.val).getLsbD j.val = decide (k.val ≤ j.val) := by decide
  exact h ⟨k, hk⟩ ⟨j, hj⟩

theorem clearFrom_ok (d : Data) (i : Nat) (hi : i < 2 ^ 31) :
    ∃ d', clearFrom d (BitVec.ofNat 32 i) = some d' ∧ (∀ j, Mem d' j ↔ j < i ∧ Mem d j) ∧ Trimmed d' := by
  unfold clearFrom
  simp only
  rw [bucketOf_ofNat i hi, toInt_ofNat' i hi]
  generalize hs : (if (i : Int) > ((i / 8 : Nat) : Int) * 8 then ((i / 8 : Nat) : Int) + 1 else ((i / 8 : Nat) : Int)) = sh
  obtain ⟨sn, rfl, hsn⟩ : ∃ sn : Nat, sh = (sn : Int) ∧ sn = if i % 8 = 0 then i / 8 else i / 8 + 1 := by
    rw [← hs]
    refine ⟨_, ?_, rfl⟩
    split_ifs <;> omega
  generalize hd1 : (if (d.length : Int) > (sn : Int) then shrink d (sn : Int) else d) = d1
  have hlen : d1.length = min d.length sn := by
    rw [← hd1]; unfold shrink; split
    · simp; omega
    · omega
  have hb : ∀ k, byteAt d1 k = if k < sn then byteAt d k else 0 := by
    intro k; rw [← hd1]; unfold shrink; split
    · rw [byteAt_take]; simp
    · split
      · rfl
      · exact byteAt_of_le (by omega)
  have hrem : ((i : Int) - ((i / 8 : Nat) : Int) * 8).toNat = i % 8 := by omega
  rw [hrem]
  have hm : i % 8 < 8 := Nat.mod_lt _ (by omega)
  split
  · next h =>
    have hk : i / 8 < d1.length := by omega
    have hi8 : i % 8 ≠ 0 := by intro e; rw [if_pos e] at hsn; omega
    rw [if_neg hi8] at hsn
    rw [get_nat hk]
    simp only
    rw [put_nat _ hk]
    refine ⟨_, rfl, ?_, shrinkToFit_trimmed _⟩
    intro j
    have hmj : j % 8 < 8 := Nat.mod_lt _ (by omega)
    rw [Mem_shrinkToFit, Mem_iff, Mem_iff, byteAt_set _ hk, hb, hb]
    split
    · next hj =>
      rw [if_pos (by omega), BitVec.getLsbD_and, BitVec.getLsbD_not, ff_shift_getLsbD _ _ hm hmj, hj]
      simp [hmj]
      rw [and_comm]
      constructor
      · rintro ⟨h1, h2⟩; exact ⟨by omega, h2⟩
      · rintro ⟨h1, h2⟩; exact ⟨by omega, h2⟩
    · next hj =>
      split
      · exact ⟨fun h => ⟨by omega, h⟩, fun h => h.2⟩
      · constructor
        · intro h; simp at h
        · rintro ⟨h1, h2⟩; omega
  · next h =>
    refine ⟨_, rfl, ?_, shrinkToFit_trimmed _⟩
    intro j
    rw [Mem_shrinkToFit, Mem_iff, Mem_iff, hb]
    by_cases hj : j / 8 < d.length
    · have : i / 8 ≥ sn ∨ d.length ≤ i / 8 := by omega
      split
      · next h' => exact ⟨fun h => ⟨by split_ifs at hsn <;> omega, h⟩, fun h => h.2⟩
      · constructor
        · intro h; simp at h
        · rintro ⟨h1, h2⟩; split_ifs at hsn <;> omega
    · rw [byteAt_of_le (by omega)]
      split <;> simp

end Verif.BitSet
