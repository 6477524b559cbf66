import Verif.Alloc
/-!
# C06: allocation rounding is sound
-/
namespace Verif.Alloc

/-! ## Lemmas: the bit smear computes `2^(log2+1) - 1` -/

theorem smear_getLsbD (v : BitVec 32) (i : Nat) :
    (nextPow2 v - 1#32).getLsbD i = true ↔ ∃ j, i ≤ j ∧ (v - 1#32).getLsbD j = true := by
  unfold nextPow2
  simp only [BitVec.add_sub_cancel]
  generalize v - 1#32 = w
  simp only [BitVec.getLsbD_or, BitVec.getLsbD_ushiftRight, Bool.or_eq_true]
  constructor
  · intro h
    rcases h with h | h <;> rcases h with h | h <;> rcases h with h | h <;> rcases h with h | h <;>
      rcases h with h | h <;> exact ⟨_, by omega, h⟩
  · rintro ⟨j, hij, hh⟩
    have hj : j < 32 := BitVec.lt_of_getLsbD hh
    obtain ⟨k, rfl⟩ : ∃ k, j = i + k := ⟨j - i, by omega⟩
    have hk : k < 32 := by omega
    clear hij
    have e : ∀ a b, a = b → w.getLsbD a = true → w.getLsbD b = true := fun a b h => h ▸ id
    have c4 : k / 16 = 0 ∨ k / 16 = 1 := by omega
    have c3 : k / 8 % 2 = 0 ∨ k / 8 % 2 = 1 := by omega
    have c2 : k / 4 % 2 = 0 ∨ k / 4 % 2 = 1 := by omega
    have c1 : k / 2 % 2 = 0 ∨ k / 2 % 2 = 1 := by omega
    have c0 : k % 2 = 0 ∨ k % 2 = 1 := by omega
    refine Or.imp ?_ ?_ c4 <;> intro h4 <;> refine Or.imp ?_ ?_ c3 <;> intro h3 <;>
      refine Or.imp ?_ ?_ c2 <;> intro h2 <;> refine Or.imp ?_ ?_ c1 <;> intro h1 <;>
      refine Or.imp ?_ ?_ c0 <;> intro h0 <;> exact e _ _ (by omega) hh

theorem smear_toNat (v : BitVec 32) (k : Nat)
    (hlo : 2 ^ k ≤ (v - 1#32).toNat) (hhi : (v - 1#32).toNat < 2 ^ (k + 1)) :
    (nextPow2 v - 1#32).toNat = 2 ^ (k + 1) - 1 := by
  apply Nat.eq_of_testBit_eq
  intro i
  rw [Nat.testBit_two_pow_sub_one]
  rw [Bool.eq_iff_iff, decide_eq_true_iff]
  refine (smear_getLsbD v i).trans ?_
  generalize hw : v - 1#32 = w at *
  constructor
  · rintro ⟨j, hij, hb⟩
    have : 2 ^ j ≤ w.toNat := Nat.ge_two_pow_of_testBit hb
    have : 2 ^ j < 2 ^ (k + 1) := by omega
    have := (Nat.pow_lt_pow_iff_right (a := 2) (by decide)).1 this
    omega
  · intro hi
    refine ⟨k, by omega, ?_⟩
    show w.toNat.testBit k = true
    rw [Nat.testBit_eq_decide_div_mod_eq]
    have : w.toNat / 2 ^ k = 1 := by
      rw [Nat.div_eq_iff (Nat.pow_pos (by decide))]
      rw [Nat.pow_succ] at hhi
      omega
    rw [this]; decide

theorem nextPow2_toNat (n : Nat) (h1 : 1 ≤ n) (h2 : n < 2 ^ 32) :
    (n = 1 ∧ (nextPow2 (BitVec.ofNat 32 n)).toNat = 1) ∨
    (∃ k, k < 32 ∧ 2 ^ k ≤ n - 1 ∧ n - 1 < 2 ^ (k + 1) ∧
      (nextPow2 (BitVec.ofNat 32 n)).toNat = 2 ^ (k + 1) % 2 ^ 32) := by
  by_cases hn : n = 1
  · left; subst hn; exact ⟨rfl, by decide⟩
  · right
    have hw : (BitVec.ofNat 32 n - 1#32).toNat = n - 1 := by
      simp [BitVec.toNat_sub]; omega
    have hne : n - 1 ≠ 0 := by omega
    refine ⟨Nat.log2 (n - 1), ?_, Nat.log2_self_le hne, Nat.lt_log2_self, ?_⟩
    · exact (Nat.log2_lt hne).2 (by omega)
    · have := smear_toNat (BitVec.ofNat 32 n) (Nat.log2 (n - 1))
        (by rw [hw]; exact Nat.log2_self_le hne)
        (by rw [hw]; exact Nat.lt_log2_self)
      have h3 : nextPow2 (BitVec.ofNat 32 n) = (nextPow2 (BitVec.ofNat 32 n) - 1#32) + 1#32 := by
        rw [BitVec.sub_add_cancel]
      rw [h3, BitVec.toNat_add, this]
      have : 0 < 2 ^ (Nat.log2 (n - 1) + 1) := Nat.pow_pos (by decide)
      show (_ + 1) % _ = _
      congr 1; omega

/-! ## Properties -/

/-- **C06 (round up).**  `RoundUp` exits exactly for requests above 2 GiB; otherwise it returns a power of two
that holds the request, is at least the minimum block, and is less than twice the request or the minimum block. -/
theorem roundUp_spec (bytes : Nat) (hsz : bytes < 2 ^ 64) :
    (roundUp bytes = none ↔ 2 ^ 31 < bytes) ∧
    ∀ r, roundUp bytes = some r →
      (∃ k, r = 2 ^ k) ∧ bytes ≤ r ∧ minAlloc ≤ r ∧ r ≤ 2 ^ 31 ∧ (r = minAlloc ∨ r < 2 * bytes) := by
  unfold roundUp minAlloc
  simp only
  by_cases hb32 : bytes < 2 ^ 32
  · rcases Nat.eq_zero_or_pos bytes with h0 | hpos
    · subst h0
      have : (nextPow2 (BitVec.ofNat 32 0)).toNat = 0 := by decide
      rw [this]
      refine ⟨by simp, ?_⟩
      intro r hr
      simp at hr; subst hr
      exact ⟨⟨7, rfl⟩, by omega, by omega, by omega, Or.inl rfl⟩
    · rcases nextPow2_toNat bytes hpos hb32 with ⟨h1, h2⟩ | ⟨k, hk, hlo, hhi, he⟩
      · rw [h2]; subst h1
        refine ⟨by simp, ?_⟩
        intro r hr
        simp at hr; subst hr
        exact ⟨⟨7, rfl⟩, by omega, by omega, by omega, Or.inl rfl⟩
      · by_cases hk31 : k = 31
        · subst hk31
          rw [he]
          refine ⟨⟨fun _ => by omega, fun _ => by rw [if_pos]; left; omega⟩, ?_⟩
          intro r hr
          rw [if_pos (by left; omega)] at hr; simp at hr
        · have hpow : 2 ^ (k + 1) ≤ 2 ^ 31 := Nat.pow_le_pow_right (by decide) (by omega)
          have hp2 : 2 ^ (k + 1) = 2 * 2 ^ k := by rw [Nat.pow_succ]; omega
          rw [he, Nat.mod_eq_of_lt (by omega)]
          have hc : ¬ (2 ^ (k + 1) < bytes ∨ 2 ^ (k + 1) > 0x80000000) := by omega
          rw [if_neg hc]
          refine ⟨by simp; omega, ?_⟩
          intro r hr
          simp only [Option.some.injEq] at hr
          split at hr
          · subst hr; exact ⟨⟨k + 1, rfl⟩, by omega, by omega, by omega, Or.inr (by omega)⟩
          · subst hr; exact ⟨⟨7, rfl⟩, by omega, by omega, by omega, Or.inl rfl⟩
  · have : (nextPow2 (BitVec.ofNat 32 bytes)).toNat < 2 ^ 32 := BitVec.isLt _
    rw [if_pos (by left; omega)]
    exact ⟨by simp; omega, by simp⟩

/-- **C06 (typed allocation).**  A successful `fu_ALLOC` for `cnt` items returns a capacity of at least `cnt`
items whose bytes fit a signed 32-bit integer. -/
theorem alloc_spec (sz : Nat) (shareable : Bool) (cnt c : Nat) (hsz : 0 < sz) (hsz' : sz < 2 ^ 31)
    (hcnt : cnt < 2 ^ 31) (h : alloc sz shareable cnt = some c) :
    cnt ≤ c ∧ 1 ≤ c ∧ c * sz < 2 ^ 31 := by
  unfold alloc at h
  simp only at h
  generalize hn : (if cnt > 1 then cnt else 1) = n at h
  have hn1 : cnt ≤ n ∧ 1 ≤ n ∧ n < 2 ^ 31 := by split at hn <;> omega
  have hbig : n * sz + arcHeader < 2 ^ 64 := by
    have : n * sz ≤ 2 ^ 31 * 2 ^ 31 := Nat.mul_le_mul (by omega) (by omega)
    unfold arcHeader; omega
  have key : ∃ b, n * sz ≤ b ∧ b < 2 ^ 31 ∧ c = b / sz := by
    cases shareable with
    | true =>
      simp only [if_true, arcAlloc] at h
      cases hr : roundUp (n * sz + arcHeader) with
      | none => rw [hr] at h; simp at h
      | some b =>
        rw [hr] at h
        obtain ⟨_, h2, h3, h4, _⟩ := (roundUp_spec _ hbig).2 b hr
        unfold arcHeader minAlloc at *
        by_cases hc : b - 16 > 0x7fffffff
        · simp [hc] at h
        · simp [hc] at h
          exact ⟨b - 16, by omega, by omega, h.symm⟩
    | false =>
      simp only [Bool.false_eq_true, if_false, uniqAlloc] at h
      cases hr : roundUp (n * sz) with
      | none => rw [hr] at h; simp at h
      | some b =>
        rw [hr] at h
        obtain ⟨_, h2, h3, h4, _⟩ := (roundUp_spec _ (by omega)).2 b hr
        by_cases hc : b > 0x7fffffff
        · simp [hc] at h
        · simp [hc] at h
          exact ⟨b, by omega, by omega, h.symm⟩
  obtain ⟨b, hb1, hb2, rfl⟩ := key
  have h1 : n ≤ b / sz := (Nat.le_div_iff_mul_le hsz).2 hb1
  have h2 : b / sz * sz ≤ b := Nat.div_mul_le_self b sz
  omega

/-- **C06 (vector capacities).**  The capacity recorded by a vector after reallocation holds the requested size,
and for types with a small representation its low nibble is non-zero, so the header can never be mistaken for a
small vector. -/
theorem vecCapa_spec (sz : Nat) (shareable hasSmall : Bool) (n c : Nat) (hsz : 0 < sz) (hsz' : sz < 2 ^ 31)
    (hn1 : 1 ≤ n) (hn : n + 1 < 2 ^ 31) (h : vecCapa sz shareable hasSmall n = some c) :
    n ≤ c ∧ c < 2 ^ 31 ∧ (hasSmall = true → c % 16 ≠ 0) := by
  unfold vecCapa at h
  cases ha : alloc sz shareable (n + (if hasSmall then 1 else 0)) with
  | none => rw [ha] at h; simp at h
  | some c' =>
    rw [ha] at h
    have := alloc_spec sz shareable _ c' hsz hsz' (by cases hasSmall <;> simp <;> omega) ha
    obtain ⟨h1, h2, h3⟩ := this
    have h4 : c' ≤ c' * sz := Nat.le_mul_of_pos_right _ hsz
    simp only [Option.some.injEq] at h
    cases hasSmall with
    | true =>
      simp only [if_true, ensureLooksBig] at h h1
      split at h
      · subst h; refine ⟨by omega, by omega, fun _ => by omega⟩
      · subst h; refine ⟨by omega, by omega, fun _ => by omega⟩
    | false => simp at h h1; subst h; exact ⟨by omega, by omega, by simp⟩

/-- **C06 (leak counters).**  For vectors of non-copiable items (`fu_UNIQ_*`, where the size is recomputed on
release) the bytes subtracted on release equal the bytes added on allocation, so the leak counter balances. -/
theorem uniq_counters_balance (sz : Nat) (hasSmall : Bool) (n a c : Nat) (hsz : 0 < sz) (hsz' : sz < 2 ^ 31)
    (hsm : hasSmall = true → sz ≤ 15) (hn : n + 1 < 2 ^ 31)
    (ha : uniqAllocBytes sz hasSmall n = some a) (hc : vecCapa sz false hasSmall n = some c) :
    uniqDeallocBytes sz c = some a := by
  unfold uniqAllocBytes uniqAlloc at ha
  simp only at ha
  unfold vecCapa alloc uniqAlloc at hc
  simp only [Bool.false_eq_true, if_false] at hc
  generalize hm : n + (if hasSmall = true then 1 else 0) = m at ha hc
  generalize hm' : (if m > 1 then m else 1) = m' at ha hc
  have hm1 : 1 ≤ m' ∧ m' < 2 ^ 31 := by cases hasSmall <;> simp at hm <;> split at hm' <;> omega
  have hbig : m' * sz < 2 ^ 64 := by
    have : m' * sz ≤ 2 ^ 31 * 2 ^ 31 := Nat.mul_le_mul (by omega) (by omega)
    omega
  cases hr : roundUp (m' * sz) with
  | none => rw [hr] at ha; simp at ha
  | some b =>
    rw [hr] at ha hc
    by_cases hb : b > 0x7fffffff
    · simp [hb] at ha
    simp only [hb, if_false, Option.some.injEq] at ha hc
    subst ha
    obtain ⟨hspec1, hspec2⟩ := roundUp_spec _ hbig
    obtain ⟨⟨k, hk⟩, h2, h3, h4, h5⟩ := hspec2 b hr
    -- the released byte count
    have hdiv : b / sz * sz ≤ b := Nat.div_mul_le_self b sz
    have hlt : b < b / sz * sz + sz := by
      have e1 := Nat.div_add_mod b sz
      have e2 := Nat.mod_lt b hsz
      rw [Nat.mul_comm] at e1
      omega
    have hle : m' * sz ≤ b / sz * sz :=
      Nat.mul_le_mul_right _ ((Nat.le_div_iff_mul_le hsz).2 h2)
    have hr1 : c * sz ≤ b ∧ (b = minAlloc ∨ b < 2 * (c * sz)) := by
      cases hasSmall with
      | false =>
        simp only [Bool.false_eq_true, if_false] at hc
        subst hc
        refine ⟨hdiv, ?_⟩
        rcases h5 with h5 | h5
        · exact Or.inl h5
        · right; omega
      | true =>
        simp only [if_true, ensureLooksBig] at hc
        have hs15 := hsm rfl
        split at hc
        · subst hc
          rw [Nat.sub_mul, Nat.one_mul]
          refine ⟨by omega, ?_⟩
          by_cases hmin : b = minAlloc
          · exact Or.inl hmin
          · right
            have : 256 ≤ b := by
              unfold minAlloc at h3 hmin
              have hk8 : 8 ≤ k := by
                rcases Nat.lt_or_ge k 8 with hk' | hk'
                · have : 2 ^ k ≤ 2 ^ 7 := Nat.pow_le_pow_right (by decide) (by omega)
                  omega
                · exact hk'
              have : 2 ^ 8 ≤ 2 ^ k := Nat.pow_le_pow_right (by decide) hk8
              omega
            omega
        · subst hc
          refine ⟨hdiv, ?_⟩
          rcases h5 with h5 | h5
          · exact Or.inl h5
          · right; omega
    -- roundUp of anything in (b/2, b] is b
    unfold uniqDeallocBytes
    obtain ⟨g1, g2⟩ := roundUp_spec (c * sz) (by omega)
    cases hr2 : roundUp (c * sz) with
    | none => have := g1.1 hr2; omega
    | some b' =>
      obtain ⟨⟨k', hk'⟩, q2, q3, q4, q5⟩ := g2 b' hr2
      have hb2 : b' ≤ b := by
        rcases q5 with q5 | q5
        · omega
        · have : 2 ^ k' < 2 ^ (k + 1) := by rw [Nat.pow_succ]; omega
          have := (Nat.pow_lt_pow_iff_right (a := 2) (by decide)).1 this
          rw [hk, hk']; exact Nat.pow_le_pow_right (by decide) (by omega)
      have hb3 : b ≤ b' := by
        rcases hr1.2 with q | q
        · omega
        · have : 2 ^ k < 2 ^ (k' + 1) := by rw [Nat.pow_succ]; omega
          have := (Nat.pow_lt_pow_iff_right (a := 2) (by decide)).1 this
          rw [hk, hk']; exact Nat.pow_le_pow_right (by decide) (by omega)
      congr 1; omega

-- Non-vacuity.
example : roundUp 1000 = some 1024 := by decide
example : roundUp 0x80000000 = some 0x80000000 ∧ roundUp 0x80000001 = none := by decide
example : alloc 3 true 200 = some 336 := by decide
example : vecCapa 1 true true 200 = some 239 := by decide        -- 256-16 = 240, low nibble 0: one slot wasted
example : uniqAllocBytes 1 true 127 = some 128 ∧ vecCapa 1 false true 127 = some 127 ∧
    uniqDeallocBytes 1 127 = some 128 := by decide

end Verif.Alloc
