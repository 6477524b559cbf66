import Verif.Pack
/-!
# C05: the 16-byte vector header round-trips
-/
namespace Verif.Pack
open Verif

/-! ## Lemmas -/

theorem word_getLsbD (r : Raw) (o i : Nat) :
    (word r o).getLsbD i =
      if i < 8 then (r o).getLsbD i else if i < 16 then (r (o + 1)).getLsbD (i - 8)
      else if i < 24 then (r (o + 2)).getLsbD (i - 16)
      else if i < 32 then (r (o + 3)).getLsbD (i - 24) else false := by
  unfold word
  simp only [BitVec.getLsbD_or, BitVec.getLsbD_shiftLeft, BitVec.getLsbD_setWidth]
  have hge : ∀ (b : Byte) j, 8 ≤ j → b.getLsbD j = false := fun b j h => BitVec.getLsbD_of_ge b j h
  repeat' split
  · simp [show i < 32 by omega, show i < 24 by omega, show i < 16 by omega, show i < 8 by omega]
  · rw [hge (r o) i (by omega)]
    simp [show i < 32 by omega, show i < 24 by omega, show i < 16 by omega, show ¬ i < 8 by omega, show i - 8 < 32 by omega]
  · rw [hge (r o) i (by omega), hge (r (o+1)) (i-8) (by omega)]
    simp [show i < 32 by omega, show i < 24 by omega, show ¬ i < 16 by omega, show i - 16 < 32 by omega]
  · rw [hge (r o) i (by omega), hge (r (o+1)) (i-8) (by omega), hge (r (o+2)) (i-16) (by omega)]
    simp [show i < 32 by omega, show ¬ i < 24 by omega, show i - 24 < 32 by omega]
  · simp [show ¬ i < 32 by omega]

theorem word_setWord (r : Raw) (o : Nat) (w : BitVec 32) : word (setWord r o w) o = w := by
  apply BitVec.eq_of_getLsbD_eq
  intro i hi
  rw [word_getLsbD]
  unfold setWord
  simp only [Nat.add_right_inj, Nat.add_eq_left, if_true]
  simp only [BitVec.getLsbD_extractLsb', Nat.reduceEqDiff, if_false, Nat.succ_ne_zero]
  repeat' split
  · simp_all
  · simp [show i - 8 < 8 by omega, show 8 + (i - 8) = i by omega]
  · simp [show i - 16 < 8 by omega, show 16 + (i - 16) = i by omega]
  · simp [show i - 24 < 8 by omega, show 24 + (i - 24) = i by omega]

theorem word_setWord_ne (r : Raw) (o p : Nat) (w : BitVec 32) (h : p + 4 ≤ o ∨ o + 4 ≤ p) :
    word (setWord r o w) p = word r p := by
  unfold word setWord
  simp only [show p + 3 ≠ o by omega, show p + 3 ≠ o + 1 by omega, show p + 3 ≠ o + 2 by omega,
    show p + 3 ≠ o + 3 by omega, show p + 2 ≠ o by omega, show p + 2 ≠ o + 1 by omega,
    show p + 2 ≠ o + 2 by omega, show p + 2 ≠ o + 3 by omega, show p + 1 ≠ o by omega,
    show p + 1 ≠ o + 1 by omega, show p + 1 ≠ o + 2 by omega, show p + 1 ≠ o + 3 by omega,
    show p ≠ o by omega, show p ≠ o + 1 by omega, show p ≠ o + 2 by omega, show p ≠ o + 3 by omega, if_false]

theorem unpackW_packW (c : Cfg) (a : BitVec 32) : unpackW c (packW c a) = a := by
  unfold unpackW packW
  split
  · apply BitVec.eq_of_getLsbD_eq
    intro i hi
    simp only [BitVec.getLsbD_or, BitVec.getLsbD_shiftLeft, BitVec.getLsbD_ushiftRight]
    by_cases h : i < 8
    · have : a.getLsbD (8 + (24 + i)) = false := BitVec.getLsbD_of_ge _ _ (by omega)
      simp [h, show 24 + i < 32 by omega, show ¬ 24 + i < 24 by omega, hi, this]
    · simp [h, show ¬ 24 + i < 32 by omega, hi, show i - 8 < 32 by omega, show i - 8 < 24 by omega,
        show 8 + (i - 8) = i by omega]
      intro hh
      have := BitVec.lt_of_getLsbD hh
      omega
  · rfl

/-- the masked bits of the packed capacity are its low nibble, in both layouts -/
theorem isBig_packW (c : Cfg) (a : BitVec 32) : packW c a &&& c.isBigMask = 0#32 ↔ a.toNat % 16 = 0 := by
  have low : ∀ x : BitVec 32, x &&& 0xf#32 = 0#32 ↔ x.toNat % 16 = 0 := by
    intro x
    have e : (x &&& 0xf#32).toNat = x.toNat % 16 := by
      rw [BitVec.toNat_and]; exact Nat.and_two_pow_sub_one_eq_mod x.toNat 4
    constructor
    · intro h; rw [← e, h]; rfl
    · intro h; apply BitVec.eq_of_toNat_eq; rw [e, h]; rfl
  unfold packW Cfg.isBigMask
  split
  · rw [← low]
    have e : ((a <<< 24) ||| (a >>> 8)) &&& 0x0f000000#32 = (a &&& 0xf#32) <<< 24 := by
      apply BitVec.eq_of_getLsbD_eq
      intro i hi
      simp only [BitVec.getLsbD_and, BitVec.getLsbD_or, BitVec.getLsbD_shiftLeft, BitVec.getLsbD_ushiftRight]
      rcases Nat.lt_or_ge i 24 with h | h
      · have : (0x0f000000#32).getLsbD i = false := by
          have : ∀ i : Fin 24, (0x0f000000#32).getLsbD i = false := by decide
          exact this ⟨i, h⟩
        simp [this, h]
      · have : (0x0f000000#32).getLsbD i = (0xf#32).getLsbD (i - 24) := by
          have : ∀ i : Fin 8, (0x0f000000#32).getLsbD (24 + i) = (0xf#32).getLsbD i := by decide
          have := this ⟨i - 24, by omega⟩
          simpa [show 24 + (i - 24) = i by omega] using this
        rw [this]
        have h2 : a.getLsbD (8 + i) = false := BitVec.getLsbD_of_ge _ _ (by omega)
        simp [show ¬ i < 24 by omega, hi, h2]
    rw [e]
    constructor
    · intro h
      apply BitVec.eq_of_getLsbD_eq
      intro i hi
      rcases Nat.lt_or_ge i 8 with h8 | h8
      · have := congrArg (fun x => BitVec.getLsbD x (i + 24)) h
        simp only [BitVec.getLsbD_shiftLeft] at this
        simpa [show i + 24 < 32 by omega] using this
      · have : (0xf#32).getLsbD i = false := by
          have : ∀ i : Fin 24, (0xf#32).getLsbD (8 + i) = false := by decide
          have := this ⟨i - 8, by omega⟩
          simpa [show 8 + (i - 8) = i by omega] using this
        rw [BitVec.getLsbD_and, this]; simp
    · intro h; rw [h]; rfl
  · exact low a

theorem clear_set_sign (a : BitVec 32) (h : a.toNat < 2 ^ 31) : (a ||| signBit) &&& ~~~signBit = a := by
  have hbit : a.getLsbD 31 = false := by
    rw [show a.getLsbD 31 = a.toNat.testBit 31 from rfl]
    exact Nat.testBit_lt_two_pow h
  apply BitVec.eq_of_getLsbD_eq
  intro i hi
  simp only [BitVec.getLsbD_and, BitVec.getLsbD_or, BitVec.getLsbD_not, hi, decide_true, Bool.true_and]
  rcases Nat.lt_or_ge i 31 with h' | h'
  · have : signBit.getLsbD i = false := by
      have : ∀ i : Fin 31, signBit.getLsbD i = false := by decide
      exact this ⟨i, h'⟩
    simp [this]
  · have : i = 31 := by omega
    subst this
    rw [hbit]; simp [signBit]

theorem clear_sign (a : BitVec 32) (h : a.toNat < 2 ^ 31) : a &&& ~~~signBit = a := by
  have h1 := clear_set_sign a h
  have : (a ||| signBit) &&& ~~~signBit = a &&& ~~~signBit := by
    apply BitVec.eq_of_getLsbD_eq
    intro i hi
    simp only [BitVec.getLsbD_and, BitVec.getLsbD_or, BitVec.getLsbD_not, hi, decide_true, Bool.true_and]
    cases signBit.getLsbD i <;> simp
  rw [← this, h1]

theorem set_sign_nibble (a : BitVec 32) : (a ||| signBit).toNat % 16 = a.toNat % 16 := by
  rw [BitVec.toNat_or]
  apply Nat.eq_of_testBit_eq
  intro i
  rw [show (16:Nat) = 2 ^ 4 from rfl, Nat.testBit_mod_two_pow, Nat.testBit_mod_two_pow, Nat.testBit_or]
  rcases Nat.lt_or_ge i 4 with h | h
  · have : signBit.toNat.testBit i = false := by
      have : ∀ i : Fin 4, signBit.toNat.testBit i = false := by decide
      exact this ⟨i, h⟩
    rw [this]; simp
  · simp [show ¬ i < 4 by omega]

theorem set_sign_neg (a : BitVec 32) : (a ||| signBit).msb = true := by
  rw [BitVec.msb_eq_getLsbD_last]
  simp [signBit]

/-! ## Properties -/

/-- The inline item bytes of a small vector, `SMALL_CAPA * sizeof(T)` of them, must stay clear of the byte(s)
that hold its size: byte 15 in the packed layout, the whole `PACK` word (bytes 12-15) otherwise. -/
def Cfg.inlineFits (c : Cfg) : Prop := c.smallCapa * c.sz ≤ (if c.packed then 15 else 12)

/-- **C05 (small vectors).**  For every item type whose inline bytes stay clear of the size field, a small vector
written with any size up to `SMALL_CAPA` and then filled with any item bytes whatsoever is still recognised as
small and still has that size, whatever the header held before. -/
theorem small_roundtrip_partial (c : Cfg) (hs : c.hasSmall = true) (hfit : c.inlineFits)
    (r : Raw) (n : Nat) (hn : n ≤ c.smallCapa) (content : Nat → Byte) :
    let r' := writeInline (writeSmall c r (BitVec.ofNat 32 n)) (c.smallCapa * c.sz) content
    small c r' = true ∧ (size c r').toNat = n ∧ (capa c r').toNat = c.smallCapa ∧
      (∀ k < c.smallCapa * c.sz, r' k = content k) := by
  have hcap : c.smallCapa ≤ 15 := by
    unfold Cfg.smallCapa; split
    · exact Nat.div_le_self 15 c.sz
    · omega
  have hn15 : n < 16 := by omega
  intro r'
  have hfit' := hfit
  unfold Cfg.inlineFits at hfit'
  have hsm : small c r' = true ∧ (readSmallSize c r').toNat = n := by
    unfold small readSmallSize
    rw [hs]
    simp only [if_true, Bool.true_and, decide_eq_true_iff]
    by_cases hp : c.packed = true
    · rw [if_pos hp] at hfit'
      have h15 : r' 15 = (BitVec.ofNat 32 n <<< 4).setWidth 8 := by
        show writeInline _ _ _ 15 = _
        unfold writeInline writeSmall
        rw [if_neg (by omega), if_pos hp, if_pos rfl]
      have hfin : ∀ n : Fin 16, ∀ i : Fin 4, ((BitVec.ofNat 32 n.val <<< 4).setWidth 8).getLsbD i = false := by decide
      have hfin2 : ∀ n : Fin 16, ∀ i : Fin 4,
          ((BitVec.ofNat 32 n.val <<< 4).setWidth 8).getLsbD (4 + i) = (BitVec.ofNat 32 n.val).getLsbD i := by decide
      constructor
      · unfold Cfg.isBigMask
        rw [if_pos hp]
        apply BitVec.eq_of_getLsbD_eq
        intro i hi
        rw [BitVec.getLsbD_and]
        unfold pack
        rw [word_getLsbD]
        rcases Nat.lt_or_ge i 24 with h | h
        · have : ∀ i : Fin 24, (0x0f000000#32).getLsbD i = false := by decide
          have := this ⟨i, h⟩
          simp only at this
          rw [this]; simp
        · rcases Nat.lt_or_ge i 28 with h' | h'
          · simp only [show ¬ i < 8 by omega, show ¬ i < 16 by omega, show ¬ i < 24 by omega, hi, if_false, if_true]
            have := hfin ⟨n, hn15⟩ ⟨i - 24, by omega⟩
            simp only at this
            rw [h15, this]; simp
          · have : ∀ i : Fin 4, (0x0f000000#32).getLsbD (28 + i) = false := by decide
            have := this ⟨i - 28, by omega⟩
            simp only [show 28 + (i - 28) = i by omega] at this
            rw [this]; simp
      · unfold Cfg.smallSizeOffset
        rw [if_pos hp]
        have : ((pack r').sshiftRight 28 &&& 0xf#32) = BitVec.ofNat 32 n := by
          apply BitVec.eq_of_getLsbD_eq
          intro i hi
          rw [BitVec.getLsbD_and]
          rcases Nat.lt_or_ge i 4 with h | h
          · have h1 : ∀ i : Fin 4, (0xf#32).getLsbD i = true := by decide
            have h1 := h1 ⟨i, h⟩
            simp only at h1
            rw [h1, Bool.and_true, BitVec.getLsbD_sshiftRight]
            simp only [show ¬ (32 ≤ i) by omega, decide_false, Bool.not_false, Bool.true_and,
              show 28 + i < 32 by omega, if_true]
            unfold pack
            rw [word_getLsbD]
            simp only [show ¬ 28 + i < 8 by omega, show ¬ 28 + i < 16 by omega, show ¬ 28 + i < 24 by omega,
              show 28 + i < 32 by omega, if_false, if_true]
            have := hfin2 ⟨n, hn15⟩ ⟨i, h⟩
            simp only at this
            rw [show 28 + i - 24 = 4 + i by omega, h15, this]
          · have h1 : ∀ i : Fin 28, (0xf#32).getLsbD (4 + i) = false := by decide
            have h1 := h1 ⟨i - 4, by omega⟩
            simp only [show 4 + (i - 4) = i by omega] at h1
            rw [h1, Bool.and_false]
            symm
            show (BitVec.ofNat 32 n).toNat.testBit i = false
            rw [BitVec.toNat_ofNat, Nat.mod_eq_of_lt (by omega)]
            exact Nat.testBit_lt_two_pow (Nat.lt_of_lt_of_le hn15 (Nat.pow_le_pow_right (n := 2) (by decide) h))
        rw [this, BitVec.toNat_ofNat, Nat.mod_eq_of_lt (by omega)]
    · rw [if_neg hp] at hfit'
      have hpk : pack r' = (BitVec.ofNat 32 n &&& 0xf#32) <<< 4 := by
        have : pack r' = word (setWord r 12 ((BitVec.ofNat 32 n &&& 0xf#32) <<< 4)) 12 := by
          show word (writeInline _ _ _) 12 = _
          unfold writeInline writeSmall Cfg.smallSizeOffset
          rw [if_neg hp]
          unfold word
          simp only [hp, show ¬ 12 + 3 < c.smallCapa * c.sz by omega, show ¬ 12 + 2 < c.smallCapa * c.sz by omega,
            show ¬ 12 + 1 < c.smallCapa * c.sz by omega, show ¬ 12 < c.smallCapa * c.sz by omega, if_false]
          rfl
        rw [this, word_setWord]
      have hm : c.isBigMask = 0xf#32 := by unfold Cfg.isBigMask; rw [if_neg hp]
      have ho : c.smallSizeOffset = 4 := by unfold Cfg.smallSizeOffset; rw [if_neg hp]
      rw [hpk, hm, ho]
      have hfin : ∀ n : Fin 16, ((BitVec.ofNat 32 n.val &&& 0xf#32) <<< 4) &&& 0xf#32 = 0#32 ∧
          ((((BitVec.ofNat 32 n.val &&& 0xf#32) <<< 4).sshiftRight 4) &&& 0xf#32).toNat = n := by decide
      exact hfin ⟨n, hn15⟩
  refine ⟨hsm.1, ?_, ?_, ?_⟩
  · unfold size; rw [hs, hsm.1]; exact hsm.2
  · unfold capa; rw [hs, hsm.1]
    simp only [if_true, BitVec.toNat_ofNat]
    exact Nat.mod_eq_of_lt (by omega)
  · intro k hk
    show writeInline _ _ _ k = _
    unfold writeInline; rw [if_pos hk]

/-- Which item sizes satisfy `inlineFits`: every size with a small representation except 5, 7, 13, 14 and 15. -/
theorem inlineFits_iff (c : Cfg) (hs : c.hasSmall = true) (hsz : 0 < c.sz) :
    c.inlineFits ↔ c.sz ∉ [5, 7, 13, 14, 15] := by
  have h15 : c.smallCapa = 15 / c.sz ∧ 15 / c.sz ≠ 0 := by
    unfold Cfg.hasSmall at hs
    unfold Cfg.smallCapa at *
    split at hs
    · rename_i h; rw [if_pos h]; exact ⟨rfl, by simpa using hs⟩
    · simp at hs
  have hle : c.sz ≤ 15 := by
    rcases Nat.lt_or_ge 15 c.sz with h | h
    · exact absurd (Nat.div_eq_of_lt h) h15.2
    · exact h
  unfold Cfg.inlineFits Cfg.packed
  rw [hs, h15.1]
  have : ∀ s : Fin 16, 0 < s.val → (15 / s.val * s.val ≤ (if (true && decide (s.val < 4)) = true then 15 else 12)
      ↔ s.val ∉ [5, 7, 13, 14, 15]) := by decide
  exact this ⟨c.sz, by omega⟩ hsz

/-- **C05 is false for 5-byte items** (and 7, 13, 14, 15): three 5-byte items occupy bytes 0-14 of the header and
overlap the unpacked `PACK` word at bytes 12-15, so writing the last item destroys the size field.  Here a small
vector of size 3 stops being recognised as small. -/
theorem small_roundtrip_fails_for_5_byte_items :
    ∃ (c : Cfg) (content : Nat → Byte), c.sz = 5 ∧ c.hasSmall = true ∧ 3 ≤ c.smallCapa ∧
      small c (writeInline (writeSmall c (fun _ => 0#8) 3#32) (3 * c.sz) content) = false :=
  ⟨⟨5, 1, true, true⟩, fun _ => 1#8, rfl, by decide, by decide, by decide⟩

/-- **C05 (big vectors).**  Writing any data pointer, any size and any capacity below 2^31 (with a non-zero low
nibble if the type has a small representation, which `Alloc.vecCapa_spec` guarantees) gives a header that is not
small and reads back exactly; marking it shared makes the capacity negative without losing it, and marking it
unique again restores it. -/
theorem big_roundtrip (c : Cfg) (r : Raw) (lo hi sz cap : BitVec 32) (hcap : cap.toNat < 2 ^ 31)
    (hcop : c.copiable = true) (hnib : c.hasSmall = true → cap.toNat % 16 ≠ 0) :
    let b := writeBig c r lo hi sz cap
    let s := markShared c b
    let u := markUnique c s
    (∀ x, x = b ∨ x = s ∨ x = u →
      small c x = false ∧ size c x = sz ∧ word x 0 = lo ∧ word x 4 = hi ∧ sharedCapa c x = cap) ∧
    capa c b = cap ∧ capa c u = cap ∧ (capa c s).slt 0#32 = true := by
  have hpn : c.hasSmall = false → c.packed = false := by
    intro h; unfold Cfg.packed; rw [h]; rfl
  have cap_of : ∀ (x : Raw) (a : BitVec 32), pack x = packW c a → (c.hasSmall = true → a.toNat % 16 ≠ 0) →
      small c x = false ∧ capa c x = a := by
    intro x a hx hnib
    cases hs : c.hasSmall with
    | true =>
      have hsm : small c x = false := by
        unfold small; rw [hs, hx]
        have := hnib hs
        have h2 := mt (isBig_packW c a).1 this
        simp [h2]
      refine ⟨hsm, ?_⟩
      unfold capa; rw [hs, hsm, hx, unpackW_packW]; simp
    | false =>
      refine ⟨by unfold small; rw [hs]; rfl, ?_⟩
      unfold capa; rw [hs, hx]; unfold packW; rw [hpn hs]; simp
  intro b s u
  have pb : pack b = packW c cap := word_setWord _ _ _
  have lob : word b 0 = lo := by
    show word (setWord (setWord (setWord (setWord r 0 lo) 4 hi) 8 sz) 12 _) 0 = lo
    rw [word_setWord_ne _ 12 0 _ (by omega), word_setWord_ne _ 8 0 _ (by omega),
      word_setWord_ne _ 4 0 _ (by omega), word_setWord]
  have hib : word b 4 = hi := by
    show word (setWord (setWord (setWord (setWord r 0 lo) 4 hi) 8 sz) 12 _) 4 = hi
    rw [word_setWord_ne _ 12 4 _ (by omega), word_setWord_ne _ 8 4 _ (by omega), word_setWord]
  have szb : word b 8 = sz := by
    show word (setWord (setWord (setWord (setWord r 0 lo) 4 hi) 8 sz) 12 _) 8 = sz
    rw [word_setWord_ne _ 12 8 _ (by omega), word_setWord]
  have ps : pack s = packW c (cap ||| signBit) := by
    show word (setWord b 12 _) 12 = _
    rw [word_setWord, pb, unpackW_packW]
  have cb := cap_of b cap pb hnib
  have cs := cap_of s (cap ||| signBit) ps (by rw [set_sign_nibble]; exact hnib)
  have scs : sharedCapa c s = cap := by
    unfold sharedCapa; rw [hcop, cs.2]; exact clear_set_sign cap hcap
  have pu : pack u = packW c cap := by
    show word (setWord s 12 _) 12 = _
    rw [word_setWord, scs]
  have cu := cap_of u cap pu hnib
  have low : ∀ (x : Raw) (w : BitVec 32), word x 0 = lo ∧ word x 4 = hi ∧ word x 8 = sz →
      word (setWord x 12 w) 0 = lo ∧ word (setWord x 12 w) 4 = hi ∧ word (setWord x 12 w) 8 = sz := by
    intro x w h
    rw [word_setWord_ne _ 12 0 _ (by omega), word_setWord_ne _ 12 4 _ (by omega), word_setWord_ne _ 12 8 _ (by omega)]
    exact h
  have lb : word b 0 = lo ∧ word b 4 = hi ∧ word b 8 = sz := ⟨lob, hib, szb⟩
  have ls := low b (packW c (unpackW c (pack b) ||| signBit)) lb
  have lu := low s (packW c (sharedCapa c s)) ls
  have szx : ∀ x, small c x = false → word x 8 = sz → size c x = sz := by
    intro x h1 h2
    unfold size; rw [h1]; split <;> simp [h2]
  refine ⟨?_, cb.2, cu.2, ?_⟩
  · rintro x (rfl | rfl | rfl)
    · exact ⟨cb.1, szx _ cb.1 lb.2.2, lb.1, lb.2.1, by unfold sharedCapa; rw [hcop, cb.2]; exact clear_sign cap hcap⟩
    · exact ⟨cs.1, szx _ cs.1 ls.2.2, ls.1, ls.2.1, scs⟩
    · exact ⟨cu.1, szx _ cu.1 lu.2.2, lu.1, lu.2.1, by unfold sharedCapa; rw [hcop, cu.2]; exact clear_sign cap hcap⟩
  · rw [cs.2, BitVec.slt_zero_eq_msb]; exact set_sign_neg cap

/-- **C05 (empty).**  The zeroed header (default construction, moved-from vectors) is an empty vector. -/
theorem reset_empty (c : Cfg) (r : Raw) : size c (reset r) = 0#32 ∧ (small c (reset r) = c.hasSmall) := by
  have hp : pack (reset r) = 0#32 := word_setWord _ _ _
  have h8 : word (reset r) 8 = 0#32 := by
    unfold reset; rw [word_setWord_ne _ 12 8 _ (by omega), word_setWord]
  have hs : small c (reset r) = c.hasSmall := by unfold small; rw [hp]; simp
  refine ⟨?_, hs⟩
  unfold size readSmallSize
  rw [hs, hp, h8]
  cases c.hasSmall <;> simp

-- Non-vacuity: strings (1-byte items, packed) and 4-byte ints (unpacked) satisfy the hypotheses.
example : (⟨1, 1, true, true⟩ : Cfg).hasSmall = true ∧ (⟨1, 1, true, true⟩ : Cfg).smallCapa = 15 ∧
    (⟨1, 1, true, true⟩ : Cfg).inlineFits := by unfold Cfg.inlineFits; decide
example : (⟨4, 4, true, true⟩ : Cfg).hasSmall = true ∧ (⟨4, 4, true, true⟩ : Cfg).packed = false ∧
    (⟨4, 4, true, true⟩ : Cfg).inlineFits := by unfold Cfg.inlineFits; decide
example : capa ⟨1, 1, true, true⟩ (markShared ⟨1, 1, true, true⟩
    (writeBig ⟨1, 1, true, true⟩ (fun _ => 0xaa#8) 1#32 2#32 200#32 239#32)) = 0x800000ef#32 := by decide

end Verif.Pack
