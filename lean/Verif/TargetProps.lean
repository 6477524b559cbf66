import Verif.Target
import Verif.HelpersProps
/-!
# Theorems about packed targets, locals and the order of evaluation (C57, C58, C59)
-/
namespace Verif.Target
open Verif Verif.Helpers

/-! ### zigzag -/

theorem rotate_nat (v : BitVec 32) : (signRotate v).toNat = if v.toInt < 0 then 2 ^ 33 - 2 * v.toNat - 1 else 2 * v.toNat := by
  unfold signRotate
  have hs : v.slt 0#32 = decide (v.toInt < 0) := by
    rw [Bool.eq_iff_iff, BitVec.slt_iff_toInt_lt]; simp
  rw [hs]
  have hlt := v.isLt
  rw [BitVec.toInt_eq_toNat_cond]
  by_cases h : 2 * v.toNat < 2 ^ 32
  · rw [if_pos h, if_neg (by simp), if_neg (by omega), BitVec.xor_zero, BitVec.toNat_shiftLeft, Nat.shiftLeft_eq]; omega
  · rw [if_neg h, if_pos (by simp; omega), if_pos (by omega), show (0xffffffff#32) = BitVec.allOnes 32 from rfl, BitVec.xor_allOnes,
      BitVec.toNat_not, BitVec.toNat_shiftLeft, Nat.shiftLeft_eq]
    omega

theorem odd_iff (w : BitVec 32) : (w &&& 1#32 ≠ 0#32) ↔ w.toNat % 2 = 1 := by
  rw [ne_eq, ← BitVec.toNat_inj, BitVec.toNat_and]
  rw [show (1#32).toNat = 1 from rfl, show (0#32).toNat = 0 from rfl, Nat.and_one_is_mod]
  omega

theorem unrotate_nat (w : BitVec 32) : (signUnrotate w).toNat = if w.toNat % 2 = 1 then 2 ^ 32 - 1 - w.toNat / 2 else w.toNat / 2 := by
  unfold signUnrotate
  by_cases h : w.toNat % 2 = 1
  · rw [if_pos ((odd_iff w).2 h), if_pos h, show (0xffffffff#32) = BitVec.allOnes 32 from rfl, BitVec.xor_allOnes,
      BitVec.toNat_not, BitVec.toNat_ushiftRight, Nat.shiftRight_eq_div_pow]
  · rw [if_neg (fun hc => h ((odd_iff w).1 hc)), if_neg h, BitVec.xor_zero, BitVec.toNat_ushiftRight, Nat.shiftRight_eq_div_pow]

/-- Zigzag encoding of local indices loses nothing, in either direction. -/
theorem unrotate_rotate (v : BitVec 32) : signUnrotate (signRotate v) = v := by
  apply BitVec.eq_of_toNat_eq
  rw [unrotate_nat, rotate_nat, BitVec.toInt_eq_toNat_cond]
  have := v.isLt
  by_cases h : 2 * v.toNat < 2 ^ 32
  · simp only [if_pos h]
    rw [if_neg (show ¬ ((v.toNat : Int) < 0) by omega), if_neg (by omega)]; omega
  · simp only [if_neg h]
    rw [if_pos (show (v.toNat : Int) - ((2 ^ 32 : Nat) : Int) < 0 by omega), if_pos (by omega)]; omega

theorem rotate_unrotate (w : BitVec 32) : signRotate (signUnrotate w) = w := by
  apply BitVec.eq_of_toNat_eq
  rw [rotate_nat, BitVec.toInt_eq_toNat_cond, unrotate_nat]
  have := w.isLt
  by_cases h : w.toNat % 2 = 1
  · simp only [if_pos h]
    split <;> split <;> omega
  · simp only [if_neg h]
    split <;> split <;> omega

/-! ### packing -/

/-- The capacity stated at src/module.fu:546-549: about a million modules, globals per module and locals per function. -/
def Fits (m g l : BitVec 32) : Prop :=
  0 ≤ m.toInt ∧ m.toInt < 2 ^ 20 ∧ 0 < g.toInt ∧ g.toInt < 2 ^ 20 ∧ -(2 ^ 19) ≤ l.toInt ∧ l.toInt < 2 ^ 19

theorem rotate_small {l : BitVec 32} (h : -(2 ^ 19) ≤ l.toInt ∧ l.toInt < 2 ^ 19) : (signRotate l).toNat < 2 ^ 20 := by
  rw [rotate_nat]
  rw [BitVec.toInt_eq_toNat_cond] at *
  have := l.isLt
  by_cases hc : 2 * l.toNat < 2 ^ 32
  · simp only [if_pos hc] at *
    rw [if_neg (by omega)]; omega
  · simp only [if_neg hc] at *
    rw [if_pos (by omega)]; omega

theorem pos_toNat {m : BitVec 32} (h : 0 ≤ m.toInt) : (m.toNat : Int) = m.toInt := by
  rw [BitVec.toInt_eq_toNat_cond] at *
  have := m.isLt
  split at h <;> rename_i hc
  · rw [if_pos hc]
  · omega

theorem sext_toNat {m : BitVec 32} (h : 0 ≤ m.toInt) : (m.signExtend 64).toNat = m.toNat := by
  have hm : m.msb = false := by
    rw [BitVec.msb_eq_toInt]; simp; omega
  rw [BitVec.signExtend_eq_setWidth_of_msb_false hm, BitVec.toNat_setWidth]
  have := m.isLt; omega

/-- the three parts side by side -/
theorem packed_nat {m g l : BitVec 32} (h : Fits m g l) :
    (m.signExtend 64 <<< 40 ||| g.signExtend 64 <<< 20 ||| (signRotate l).setWidth 64).toNat =
      m.toNat * 2 ^ 40 + g.toNat * 2 ^ 20 + (signRotate l).toNat := by
  obtain ⟨h1, h2, h3, h4, h5⟩ := h
  have hr := rotate_small h5
  have hm := pos_toNat h1
  have hg := pos_toNat (m := g) (by omega)
  rw [BitVec.toNat_or, BitVec.toNat_or, BitVec.toNat_shiftLeft, BitVec.toNat_shiftLeft, sext_toNat h1, sext_toNat (by omega),
    BitVec.toNat_setWidth, Nat.shiftLeft_eq, Nat.shiftLeft_eq, Nat.mod_eq_of_lt (a := m.toNat * 2 ^ 40) (by omega),
    Nat.mod_eq_of_lt (a := g.toNat * 2 ^ 20) (by omega), Nat.mod_eq_of_lt (a := (signRotate l).toNat) (by omega)]
  have e1 : m.toNat * 2 ^ 40 ||| g.toNat * 2 ^ 20 = (m.toNat * 2 ^ 20 + g.toNat) * 2 ^ 20 := by
    rw [← Nat.shiftLeft_eq m.toNat, ← Nat.shiftLeft_add_eq_or_of_lt (by omega), Nat.shiftLeft_eq]; omega
  rw [e1, ← Nat.shiftLeft_eq (m.toNat * 2 ^ 20 + g.toNat), ← Nat.shiftLeft_add_eq_or_of_lt (by omega), Nat.shiftLeft_eq]
  omega

theorem and_low (t : BitVec 64) : (t &&& 0xfffff#64).toNat = t.toNat % 2 ^ 20 := by
  rw [BitVec.toNat_and, show (0xfffff#64).toNat = 2 ^ 20 - 1 from rfl, Nat.and_two_pow_sub_one_eq_mod]

/-- **C57** A target within the documented capacity reads back as exactly the module, global and local it was made
from, and leaves the top four bits free for flags. -/
theorem target_reads_back (m g l : BitVec 32) (h : Fits m g l) :
    ∃ t, mk m g l = .ok t ∧ modid t = m ∧ globid t = g ∧ locid t = l ∧ t.toNat < 2 ^ 60 := by
  have hn := packed_nat h
  obtain ⟨h1, h2, h3, h4, h5⟩ := h
  have hr := rotate_small h5
  have hm := pos_toNat h1
  have hg := pos_toNat (m := g) (by omega)
  refine ⟨_, if_pos ?_, ?_, ?_, ?_, ?_⟩
  · rw [Bool.and_eq_true, BitVec.sle_iff_toInt_le, BitVec.slt_iff_toInt_lt]
    exact ⟨h1, h3⟩
  · apply BitVec.eq_of_toNat_eq
    unfold modid
    rw [BitVec.toNat_setWidth, and_low, BitVec.toNat_ushiftRight, Nat.shiftRight_eq_div_pow, hn]
    omega
  · apply BitVec.eq_of_toNat_eq
    unfold globid
    rw [BitVec.toNat_setWidth, and_low, BitVec.toNat_ushiftRight, Nat.shiftRight_eq_div_pow, hn]
    omega
  · unfold locid
    have : BitVec.setWidth 32 ((m.signExtend 64 <<< 40 ||| g.signExtend 64 <<< 20 ||| (signRotate l).setWidth 64) &&& 0xfffff#64)
        = signRotate l := by
      apply BitVec.eq_of_toNat_eq
      rw [BitVec.toNat_setWidth, and_low, hn]
      omega
    rw [this, unrotate_rotate]
  · rw [hn]; omega

/-- **C57** Different declarations get different targets. -/
theorem targets_distinct (m g l m' g' l' : BitVec 32) (h : Fits m g l) (h' : Fits m' g' l') (he : mk m g l = mk m' g' l') :
    m = m' ∧ g = g' ∧ l = l' := by
  obtain ⟨t, e, h1, h2, h3, _⟩ := target_reads_back m g l h
  obtain ⟨t', e', h1', h2', h3', _⟩ := target_reads_back m' g' l' h'
  rw [e, e'] at he
  cases he
  exact ⟨h1.symm.trans h1', h2.symm.trans h2', h3.symm.trans h3'⟩

/-- **C57** A target knows whether it is an argument: exactly if its local index is negative. -/
theorem target_isArg (m g l : BitVec 32) (h : Fits m g l) : ∃ t, mk m g l = .ok t ∧ (isArg t = true ↔ l.toInt < 0) := by
  obtain ⟨t, e, _, _, h3, _⟩ := target_reads_back m g l h
  refine ⟨t, e, ?_⟩
  unfold isArg
  rw [h3, BitVec.slt_iff_toInt_lt]; simp

/-- **C57** Beyond the capacity targets collide: nothing checks the upper bounds.  Local 524288 of global 1 is local 0
of global 1 again, and global 1048577 of module 0 is global 1 of module 1. -/
theorem targets_collide : mk 0 1 524288 = mk 0 1 0 ∧ mk 0 1048577 0 = mk 1 1 0 := by decide +kernel

example : Fits 7 1000 (-3) := by unfold Fits; decide
example : ∃ t, mk 7 1000 (-3) = .ok t ∧ isArg t := ⟨_, rfl, by decide +kernel⟩

/-! ### targets in strings -/

/-- a target a program can have made: within capacity -/
def Good (t : Packed) : Prop := ∃ m g l, Fits m g l ∧ mk m g l = .ok t

theorem Good.parts {t : Packed} (h : Good t) : (0#32).sle (modid t) = true ∧ (0#32).slt (globid t) = true ∧
    mk (modid t) (globid t) (locid t) = .ok t := by
  obtain ⟨m, g, l, hf, e⟩ := h
  obtain ⟨t', e', h1, h2, h3, _⟩ := target_reads_back m g l hf
  rw [e] at e'
  cases e'
  rw [h1, h2, h3]
  refine ⟨?_, ?_, e⟩
  · rw [BitVec.sle_iff_toInt_le]; exact hf.1
  · rw [BitVec.slt_iff_toInt_lt]; exact hf.2.2.1

/-- **C57** Whatever was in the string before and whatever follows, a target written to it reads back, and reading
stops exactly where writing stopped. -/
theorem target_string_roundtrip (pre suf : Str) (t : Packed) (h : Good t) :
    ∃ s, appendLocalOrGlobal pre t = .ok (pre ++ s) ∧ s ≠ [] ∧
      parseLocalOrGlobal (pre ++ s ++ suf) pre.length = .ok (t, (pre ++ s).length) := by
  obtain ⟨h1, h2, h3⟩ := h.parts
  refine ⟨enc (modid t) ++ (enc (globid t) ++ enc (signRotate (locid t))), ?_, ?_, ?_⟩
  · unfold appendLocalOrGlobal
    rw [h1, h2]
    simp only [Bool.and_self, if_true]
    rw [appendVarint_eq, appendVarint_eq, appendVarint_eq]
    simp only [List.append_assoc]
  · obtain ⟨hi, c, e, _⟩ := varint_alphabet (modid t)
    rw [e]; simp
  · have r1 := varint_roundtrip pre (enc (globid t) ++ (enc (signRotate (locid t)) ++ suf)) (modid t)
    have r2 := varint_roundtrip (pre ++ enc (modid t)) (enc (signRotate (locid t)) ++ suf) (globid t)
    have r3 := varint_roundtrip (pre ++ (enc (modid t) ++ enc (globid t))) suf (signRotate (locid t))
    simp only [appendVarint_eq, List.append_assoc] at r1 r2 r3 ⊢
    unfold parseLocalOrGlobal
    rw [r1]
    simp only [bind, Except.bind]
    rw [r2]
    simp only
    rw [r3]
    simp only
    rw [unrotate_rotate, h3]

/-- **C57** The same for the shorter form without the local index, for targets that are globals. -/
theorem global_string_roundtrip (pre suf : Str) (t : Packed) (h : Good t) (hl : locid t = 0#32) :
    ∃ s, appendGlobal pre t = .ok (pre ++ s) ∧ s ≠ [] ∧
      parseGlobal (pre ++ s ++ suf) pre.length = .ok (t, (pre ++ s).length) := by
  obtain ⟨h1, h2, h3⟩ := h.parts
  refine ⟨enc (modid t) ++ enc (globid t), ?_, ?_, ?_⟩
  · unfold appendGlobal
    rw [h1, h2, hl]
    simp only [Bool.and_self, beq_self_eq_true, if_true]
    rw [appendVarint_eq, appendVarint_eq]
    simp only [List.append_assoc]
  · obtain ⟨hi, c, e, _⟩ := varint_alphabet (modid t)
    rw [e]; simp
  · have r1 := varint_roundtrip pre (enc (globid t) ++ suf) (modid t)
    have r2 := varint_roundtrip (pre ++ enc (modid t)) suf (globid t)
    simp only [appendVarint_eq, List.append_assoc] at r1 r2 ⊢
    unfold parseGlobal
    rw [r1]
    simp only [bind, Except.bind]
    rw [r2]
    simp only
    rw [← hl, h3]

theorem unpack_good (ts : List Packed) (h : ∀ t ∈ ts, Good t) (pre s : Str) (e : ts.foldlM appendLocalOrGlobal pre = .ok s)
    (fuel : Nat) (hf : ts.length ≤ fuel) : pre <+: s ∧ unpackLoop s fuel pre.length = .ok ts := by
  induction ts generalizing pre fuel with
  | nil =>
    cases e
    refine ⟨List.prefix_refl _, ?_⟩
    cases fuel with
    | zero => rfl
    | succ n => rw [unpackLoop, if_neg (by omega)]
  | cons t ts ih =>
    obtain ⟨w, e1, hne, _⟩ := target_string_roundtrip pre [] t (h t List.mem_cons_self)
    rw [List.foldlM_cons, e1] at e
    cases fuel with
    | zero => simp at hf
    | succ n =>
      obtain ⟨⟨suf, hp⟩, hu⟩ := ih (fun t ht => h t (List.mem_cons_of_mem _ ht)) (pre ++ w) e n (by simp at hf; omega)
      refine ⟨⟨w ++ suf, by rw [← hp, List.append_assoc]⟩, ?_⟩
      obtain ⟨w', e1', _, hr⟩ := target_string_roundtrip pre suf t (h t List.mem_cons_self)
      rw [e1] at e1'
      have : w = w' := by simpa using e1'
      subst this
      have hlt : pre.length < s.length := by
        rw [← hp]
        have : w.length ≠ 0 := fun hc => hne (List.length_eq_zero_iff.1 hc)
        simp; omega
      rw [unpackLoop, if_pos hlt]
      rw [hp] at hr
      simp only [hr, bind, Except.bind]
      rw [(h t List.mem_cons_self).parts.2.2]
      simp only
      rw [hu]

theorem pack_total (ts : List Packed) (h : ∀ t ∈ ts, Good t) (pre : Str) :
    ∃ s, ts.foldlM appendLocalOrGlobal pre = .ok s ∧ pre.length + ts.length ≤ s.length := by
  induction ts generalizing pre with
  | nil => exact ⟨pre, rfl, by simp⟩
  | cons t ts ih =>
    obtain ⟨w, e1, hne, _⟩ := target_string_roundtrip pre [] t (h t List.mem_cons_self)
    obtain ⟨s, e, hl⟩ := ih (fun t ht => h t (List.mem_cons_of_mem _ ht)) (pre ++ w)
    refine ⟨s, by rw [List.foldlM_cons, e1]; exact e, ?_⟩
    have : w.length ≠ 0 := fun hc => hne (List.length_eq_zero_iff.1 hc)
    simp only [List.length_append, List.length_cons] at *
    omega

/-- **C57** The type of an overload set (`&fn`) lists exactly the functions it was made from, in order. -/
theorem addr_of_fn_roundtrip (ts : List Packed) (h : ∀ t ∈ ts, Good t) :
    ∃ s, packAddrOfFn ts = .ok s ∧ unpackAddrOfFn s = .ok ts := by
  obtain ⟨s, e, hl⟩ := pack_total ts h [ch '@']
  refine ⟨s, e, ?_⟩
  obtain ⟨⟨suf, hp⟩, hu⟩ := unpack_good ts h [ch '@'] s e s.length (by simp at hl; omega)
  unfold unpackAddrOfFn
  rw [if_pos (by rw [← hp]; rfl)]
  exact hu

/-! ### scope items -/

theorem and62 (t : BitVec 64) : (t &&& 0x3fffffffffffffff#64).toNat = t.toNat % 2 ^ 62 := by
  rw [BitVec.toNat_and, show (0x3fffffffffffffff#64).toNat = 2 ^ 62 - 1 from rfl, Nat.and_two_pow_sub_one_eq_mod]

theorem bit_of_lt {t : BitVec 64} {k i : Nat} (h : t.toNat < 2 ^ k) (hi : k ≤ i) : t.getLsbD i = false := by
  rw [BitVec.getLsbD, Nat.testBit_lt_two_pow]
  exact Nat.lt_of_lt_of_le h (Nat.pow_le_pow_right (by omega) hi)

/-- the flag masks, bit by bit -/
theorem mask62 (i : Nat) : (0x3fffffffffffffff#64).getLsbD i = decide (i < 62) := by
  rw [BitVec.getLsbD, show (0x3fffffffffffffff#64).toNat = 2 ^ 62 - 1 from rfl, Nat.testBit_two_pow_sub_one]

theorem mask63 (i : Nat) : (0x8000000000000000#64).getLsbD i = decide (i = 63) := by
  rw [BitVec.getLsbD, show (0x8000000000000000#64).toNat = 2 ^ 63 from rfl, Nat.testBit_two_pow]; simp [eq_comm]

theorem maskSkip (i : Nat) : (0x4000000000000000#64).getLsbD i = decide (i = 62) := by
  rw [BitVec.getLsbD, show (0x4000000000000000#64).toNat = 2 ^ 62 from rfl, Nat.testBit_two_pow]; simp [eq_comm]

theorem nz_iff (x m : BitVec 64) (k : Nat) (hk : k < 64) (hm : ∀ i, m.getLsbD i = decide (i = k)) : (x &&& m ≠ 0#64) ↔ x.getLsbD k = true := by
  constructor
  · intro h
    by_cases hc : x.getLsbD k = true
    · exact hc
    · refine absurd ?_ h
      apply BitVec.eq_of_getLsbD_eq
      intro i hi
      rw [BitVec.getLsbD_and, hm]
      by_cases hik : i = k
      · subst hik; simp at hc; simp [hc]
      · simp [hik]
  · intro h hc
    have := congrArg (fun b => BitVec.getLsbD b k) hc
    simp only [BitVec.getLsbD_and, hm, h] at this
    simp at this

/-- **C57** A scope item carries its target and its flags independently: marking "no further matches" or clearing the
mark changes neither the target nor the shadowing flag. -/
theorem scope_item_fields (t : Packed) (shadows : Bool) (h : Good t) :
    itemTarget (scopeItem t shadows) = t ∧ itemShadows (scopeItem t shadows) = shadows ∧ itemSkip (scopeItem t shadows) = false := by
  have hlt : t.toNat < 2 ^ 60 := by
    obtain ⟨m, g, l, hf, e⟩ := h
    obtain ⟨t', e', _, _, _, h4⟩ := target_reads_back m g l hf
    rw [e] at e'; cases e'; exact h4
  have hbit : ∀ i, (scopeItem t shadows).getLsbD i = (t.getLsbD i || (shadows && decide (i = 63))) := by
    intro i
    unfold scopeItem
    rw [BitVec.getLsbD_or, BitVec.getLsbD_and, mask62]
    have e0 : (if shadows = true then 0x8000000000000000#64 else 0#64).getLsbD i = (shadows && decide (i = 63)) := by
      cases shadows
      · simp
      · simp only [if_true, mask63, Bool.true_and]
    rw [e0]
    by_cases hi : i < 62
    · simp [hi]
    · rw [bit_of_lt hlt (show 60 ≤ i by omega)]; simp
  refine ⟨?_, ?_, ?_⟩
  · apply BitVec.eq_of_getLsbD_eq
    intro i hi
    unfold itemTarget
    rw [BitVec.getLsbD_and, hbit, mask62]
    by_cases hi : i < 62
    · have : i ≠ 63 := by omega
      simp [hi, this]
    · rw [bit_of_lt hlt (show 60 ≤ i by omega)]; simp [hi]
  · unfold itemShadows
    have := nz_iff (scopeItem t shadows) _ 63 (by omega) mask63
    rw [hbit, bit_of_lt hlt (show 60 ≤ 63 by omega)] at this
    simp at this
    cases shadows <;> simpa using this
  · unfold itemSkip
    have := nz_iff (scopeItem t shadows) _ 62 (by omega) maskSkip
    rw [hbit, bit_of_lt hlt (show 60 ≤ 62 by omega)] at this
    simpa using this

theorem skip_mark_harmless (i : BitVec 64) :
    itemTarget (itemSkipSet i) = itemTarget i ∧ itemShadows (itemSkipSet i) = itemShadows i ∧ itemSkip (itemSkipSet i) = true ∧
    itemTarget (itemSkipClear i) = itemTarget i ∧ itemShadows (itemSkipClear i) = itemShadows i ∧ itemSkip (itemSkipClear i) = false := by
  have hs : ∀ k, (itemSkipSet i).getLsbD k = (i.getLsbD k || decide (k = 62)) := by
    intro k; unfold itemSkipSet; rw [BitVec.getLsbD_or, maskSkip]
  have hc : ∀ k, (itemSkipClear i).getLsbD k = (i.getLsbD k && (decide (k < 64) && !decide (k = 62))) := by
    intro k; unfold itemSkipClear; rw [BitVec.getLsbD_and, BitVec.getLsbD_not, maskSkip]
  have ht : ∀ j : BitVec 64, (∀ k, k < 62 → j.getLsbD k = i.getLsbD k) → itemTarget j = itemTarget i := by
    intro j hj
    apply BitVec.eq_of_getLsbD_eq
    intro k _
    unfold itemTarget
    rw [BitVec.getLsbD_and, BitVec.getLsbD_and, mask62]
    by_cases hk : k < 62
    · rw [hj k hk]
    · simp [hk]
  have hsh : ∀ j : BitVec 64, j.getLsbD 63 = i.getLsbD 63 → itemShadows j = itemShadows i := by
    intro j hj
    unfold itemShadows
    rw [Bool.eq_iff_iff]
    simp only [decide_eq_true_eq]
    rw [nz_iff j _ 63 (by omega) mask63, nz_iff i _ 63 (by omega) mask63, hj]
  refine ⟨ht _ fun k hk => ?_, hsh _ ?_, ?_, ht _ fun k hk => ?_, hsh _ ?_, ?_⟩
  · rw [hs]; have : k ≠ 62 := by omega
    simp [this]
  · rw [hs]; simp
  · unfold itemSkip; simp only [decide_eq_true_eq]; rw [nz_iff _ _ 62 (by omega) maskSkip, hs]; simp
  · rw [hc]; have : k ≠ 62 := by omega
    have : k < 64 := by omega
    simp [*]
  · rw [hc]; simp
  · unfold itemSkip; simp only [decide_eq_false_iff_not]; rw [nz_iff _ _ 62 (by omega) maskSkip, hc]; simp

/-! ### locals -/

/-- What a local index resolves to (src/context.fu looks overloads up at `indexOfLocal`). -/
def lookup {α : Type} (e : Ext α) (l : Int) : Option α :=
  if l ≠ 0 ∧ 0 ≤ indexOfLocal e l then e.items[(indexOfLocal e l).toNat]? else none

/-- Create arguments (`true`) and locals (`false`) in any order: the index each was given, and the function after. -/
def createAll {α : Type} : Ext α → List (α × Bool) → List Int × Ext α
  | e, [] => ([], e)
  | e, (x, asArg) :: rest =>
    let (l, e) := createLocal e x asArg
    let (ls, e) := createAll e rest
    (l :: ls, e)

/-- as many arguments as announced -/
def Ext.Ok {α : Type} (e : Ext α) : Prop := 0 ≤ e.argsNeg ∧ e.argsNeg ≤ e.items.length

theorem create_ok {α : Type} (e : Ext α) (h : e.Ok) (x : α) (a : Bool) : (createLocal e x a).2.Ok := by
  unfold createLocal Ext.Ok at *
  cases a <;> simp <;> omega

theorem create_new {α : Type} (e : Ext α) (h : e.Ok) (x : α) (a : Bool) :
    lookup (createLocal e x a).2 (createLocal e x a).1 = some x ∧ lookup e (createLocal e x a).1 = none ∧
      ((createLocal e x a).1 < 0 ↔ a = true) := by
  unfold createLocal nextIndexOfLocal lookup indexOfLocal Ext.Ok at *
  cases a
  · simp only [Bool.false_eq_true, if_false, Int.add_zero]
    have e1 : (e.items.length : Int) + (1 - e.argsNeg) > 0 := by omega
    rw [if_pos e1]
    have e2 : e.argsNeg - 1 + ((e.items.length : Int) + (1 - e.argsNeg)) = e.items.length := by omega
    rw [e2, if_pos ⟨by omega, by omega⟩, if_pos ⟨by omega, by omega⟩, Int.toNat_natCast]
    refine ⟨by simp, by simp, ⟨fun h => absurd h (by omega), fun h => absurd h (by trivial)⟩⟩
  · simp only [if_true]
    have e1 : ¬ (-1 - e.argsNeg > 0) := by omega
    rw [if_neg e1]
    have e2 : e.argsNeg + 1 - 0 + (-1 - e.argsNeg) = 0 := by omega
    have e3 : e.argsNeg - 0 + (-1 - e.argsNeg) = -1 := by omega
    rw [e2, e3]
    refine ⟨?_, ?_, ?_⟩
    · rw [if_pos ⟨by omega, by omega⟩]; rfl
    · rw [if_neg (by omega)]
    · simp; omega

theorem create_old {α : Type} (e : Ext α) (x y : α) (a : Bool) (l : Int) (hl : lookup e l = some y) :
    lookup (createLocal e x a).2 l = some y := by
  unfold lookup at *
  split at hl
  · rename_i hc
    unfold createLocal
    cases a
    · simp only [indexOfLocal, Bool.false_eq_true, if_false, Int.add_zero] at hc hl ⊢
      rw [if_pos hc]
      have hlt : _ < e.items.length := (List.getElem?_eq_some_iff.1 hl).1
      rw [List.getElem?_append_left hlt, hl]
    · simp only [indexOfLocal, if_true] at hc hl ⊢
      rw [if_pos ⟨hc.1, by omega⟩]
      have : (e.argsNeg + 1 - (if l > 0 then 1 else 0) + l).toNat = (e.argsNeg - (if l > 0 then 1 else 0) + l).toNat + 1 := by omega
      rw [this, List.getElem?_cons_succ, hl]
  · cases hl

theorem createAll_keeps {α : Type} (xs : List (α × Bool)) (e : Ext α) (y : α) (l : Int) (hl : lookup e l = some y) :
    lookup (createAll e xs).2 l = some y := by
  induction xs generalizing e with
  | nil => exact hl
  | cons p xs ih => obtain ⟨x, a⟩ := p; exact ih _ (create_old e x y a l hl)

theorem createAll_fresh {α : Type} (xs : List (α × Bool)) (e : Ext α) (h : e.Ok) (y : α) (l : Int) (hl : lookup e l = some y) :
    l ∉ (createAll e xs).1 := by
  induction xs generalizing e with
  | nil => simp [createAll]
  | cons p xs ih =>
    obtain ⟨x, a⟩ := p
    simp only [createAll, List.mem_cons, not_or]
    refine ⟨?_, ih _ (create_ok e h x a) (create_old e x y a l hl)⟩
    intro hc
    have := (create_new e h x a).2.1
    rw [← hc, hl] at this; cases this

/-- **C58** Whatever the order in which a function's arguments and locals are created - arguments discovered late
included, which shifts everything already stored - every index handed out keeps naming the declaration it was handed
out for, no two are the same, and the negative ones are exactly the arguments. -/
theorem locals_keep_their_ids {α : Type} (xs : List (α × Bool)) :
    let r := createAll { argsNeg := 0, items := [] } xs
    r.1.length = xs.length ∧ r.1.Nodup ∧
    ∀ (i : Nat) x a, xs[i]? = some (x, a) → ∃ l, r.1[i]? = some l ∧ lookup r.2 l = some x ∧ (l < 0 ↔ a = true) := by
  have key : ∀ (xs : List (α × Bool)) (e : Ext α), e.Ok → (createAll e xs).1.length = xs.length ∧ (createAll e xs).1.Nodup ∧
      ∀ (i : Nat) x a, xs[i]? = some (x, a) → ∃ l, (createAll e xs).1[i]? = some l ∧ lookup (createAll e xs).2 l = some x ∧ (l < 0 ↔ a = true) := by
    intro xs
    induction xs with
    | nil => intro e _; exact ⟨rfl, List.nodup_nil, fun i x a h => by simp at h⟩
    | cons p xs ih =>
      intro e he
      obtain ⟨x, a⟩ := p
      obtain ⟨h1, h2, h3⟩ := ih _ (create_ok e he x a)
      obtain ⟨n1, n2, n3⟩ := create_new e he x a
      refine ⟨by simp only [createAll, List.length_cons, h1], ?_, ?_⟩
      · simp only [createAll, List.nodup_cons]
        exact ⟨createAll_fresh xs _ (create_ok e he x a) _ _ n1, h2⟩
      · intro i x' a' hi
        cases i with
        | zero =>
          simp only [List.getElem?_cons_zero, Option.some.injEq, Prod.mk.injEq] at hi
          obtain ⟨rfl, rfl⟩ := hi
          exact ⟨_, rfl, createAll_keeps xs _ _ _ n1, n3⟩
        | succ i =>
          simp only [List.getElem?_cons_succ] at hi
          exact h3 i x' a' hi
  exact key xs _ ⟨by simp, by simp⟩

example : createAll ({ argsNeg := 0, items := [] } : Ext String) [("x", true), ("i", false), ("late", true), ("j", false)] =
    ([-1, 1, -2, 2], { argsNeg := 2, items := ["late", "x", "i", "j"] }) := rfl

/-! ### order of evaluation -/

/-- The order documented at src/module.fu:411-415: the arguments that are not `mut ref` or implicit from left to right,
then the others from left to right.  (For operators marked right-to-left: everything but the first, then the first.) -/
def order (rtl : Bool) (late : Nat → Bool) (n : Nat) : List Nat :=
  let isLate := fun i => if rtl then i == 0 else late i
  (List.range n).filter (fun i => !isLate i) ++ (List.range n).filter isLate

/-- number the visits from `seq` on, in an order of `n` arguments -/
def number (n : Nat) : Nat → List Nat → List Visit
  | _, [] => []
  | seq, i :: is => { i := i, seq := seq, isLast := decide (seq + 1 = n) } :: number n (seq + 1) is

/-- **C59** (specification) all visits, the first ones left out -/
def visits (rtl : Bool) (late : Nat → Bool) (n start : Nat) : List Visit := (number n 0 (order rtl late n)).drop start

theorem number_append (n seq : Nat) (a b : List Nat) : number n seq (a ++ b) = number n seq a ++ number n (seq + a.length) b := by
  induction a generalizing seq with
  | nil => rfl
  | cons x a ih => simp only [List.cons_append, number, ih, List.length_cons]; rw [show seq + 1 + a.length = seq + (a.length + 1) by omega]

theorem number_length (n seq : Nat) (a : List Nat) : (number n seq a).length = a.length := by
  induction a generalizing seq with
  | nil => rfl
  | cons x a ih => simp [number, ih]

theorem number_get (n seq : Nat) (a : List Nat) (k : Nat) : (number n seq a)[k]? = a[k]?.map fun i => ⟨i, seq + k, decide (seq + k + 1 = n)⟩ := by
  induction a generalizing seq k with
  | nil => rfl
  | cons x a ih =>
    cases k with
    | zero => rfl
    | succ k => simp only [number, List.getElem?_cons_succ, ih]; rw [show seq + 1 + k = seq + (k + 1) by omega]

/-- the arguments of one pass from `i` on -/
def passFrom (rtl : Bool) (late : Nat → Bool) (n : Nat) (pass : Bool) (i : Nat) : List Nat :=
  (List.range' i (n - i)).filter (inPass rtl late pass)

theorem passFrom_step (rtl : Bool) (late : Nat → Bool) (n : Nat) (pass : Bool) (i : Nat) (h : i < n) :
    passFrom rtl late n pass i = if inPass rtl late pass i then i :: passFrom rtl late n pass (i + 1) else passFrom rtl late n pass (i + 1) := by
  unfold passFrom
  rw [show n - i = (n - (i + 1)) + 1 by omega, List.range'_succ, List.filter_cons]

theorem fwdPass_eq (rtl : Bool) (late : Nat → Bool) (n start : Nat) (pass : Bool) (i seq : Nat) (again : Bool) :
    fwdPass rtl late n start pass i seq again =
      ((number n seq (passFrom rtl late n pass i)).drop (start - seq), seq + (passFrom rtl late n pass i).length,
        again || (List.range' i (n - i)).any fun i => !inPass rtl late pass i) := by
  induction hk : n - i generalizing i seq again with
  | zero =>
    rw [fwdPass, if_neg (by omega)]
    unfold passFrom
    rw [hk]
    simp [number]
  | succ k ih =>
    rw [fwdPass, if_pos (by omega), passFrom_step _ _ _ _ _ (by omega)]
    have hr : List.range' i (k + 1) = i :: List.range' (i + 1) k := List.range'_succ
    have hk' : n - (i + 1) = k := by omega
    by_cases hp : inPass rtl late pass i = true
    · rw [if_pos hp, if_pos hp, ih _ _ _ hk', hr]
      simp only [List.any_cons, hp, Bool.not_true, Bool.false_or, number, List.length_cons]
      by_cases hs : start ≤ seq
      · rw [if_pos hs, show start - seq = 0 by omega, show start - (seq + 1) = 0 by omega]
        simp only [List.drop_zero, Prod.mk.injEq, List.cons.injEq, Visit.mk.injEq, true_and, and_true]
        refine ⟨?_, by omega⟩
        rw [Bool.eq_iff_iff]; simp; omega
      · rw [if_neg hs, show start - seq = (start - (seq + 1)) + 1 by omega, List.drop_succ_cons]
        simp only [Prod.mk.injEq, true_and, and_true]
        omega
    · rw [if_neg hp, if_neg hp, ih _ _ _ hk', hr]
      have : inPass rtl late pass i = false := by simpa using hp
      simp only [List.any_cons, this, Bool.not_false, Bool.true_or, Bool.or_true]

theorem order_eq (rtl : Bool) (late : Nat → Bool) (n : Nat) :
    order rtl late n = passFrom rtl late n false 0 ++ passFrom rtl late n true 0 := by
  unfold order passFrom
  simp only [Nat.sub_zero, ← List.range_eq_range']
  congr 1
  · apply List.filter_congr
    intro i _
    simp only [inPass]
    cases (if rtl = true then i == 0 else late i) <;> rfl
  · apply List.filter_congr
    intro i _
    simp only [inPass]
    cases (if rtl = true then i == 0 else late i) <;> rfl

/-- every argument left out of one pass is in the other -/
theorem pass_none (rtl : Bool) (late : Nat → Bool) (n : Nat) (pass : Bool)
    (h : ((List.range' 0 (n - 0)).any fun i => !inPass rtl late pass i) = false) : passFrom rtl late n (!pass) 0 = [] := by
  unfold passFrom
  rw [List.filter_eq_nil_iff]
  intro i hi
  rw [List.any_eq_false] at h
  have := h i hi
  simp only [inPass] at this ⊢
  generalize (if rtl = true then i == 0 else late i) = b at *
  cases pass <;> cases b <;> simp_all

/-- **C59** Forward, the visitor sees exactly the documented order - each argument once, numbered consecutively, the
last one marked - from the requested position on. -/
theorem forward_order (rtl : Bool) (late : Nat → Bool) (n start : Nat) : argsForward rtl late n start = visits rtl late n start := by
  unfold argsForward visits
  rw [fwdPass_eq]
  dsimp only
  rw [fwdPass_eq, order_eq, number_append]
  simp only [Nat.zero_add, Nat.sub_zero, Bool.false_or]
  rw [List.drop_append, number_length]
  split
  · rfl
  · rename_i hc
    have := pass_none rtl late n false (by simpa using hc)
    simp only [Bool.not_false] at this
    rw [this]
    simp [number]

theorem passBelow_step (rtl : Bool) (late : Nat → Bool) (pass : Bool) (i : Nat) :
    ((List.range (i + 1)).filter (inPass rtl late pass)).reverse =
      if inPass rtl late pass i then i :: ((List.range i).filter (inPass rtl late pass)).reverse
      else ((List.range i).filter (inPass rtl late pass)).reverse := by
  rw [List.range_succ, List.filter_append, List.reverse_append]
  by_cases h : inPass rtl late pass i = true
  · simp [h]
  · simp [h]

/-- number the visits of the reverse walk; only the very first may be marked last -/
def numberRev : Nat → Bool → List Nat → List Visit
  | _, _, [] => []
  | seq, first, i :: is => { i := i, seq := seq, isLast := first } :: numberRev (seq + 1) false is

theorem revPass_eq (rtl : Bool) (late : Nat → Bool) (pass : Bool) (i seq : Nat) (first again : Bool) :
    revPass rtl late pass i seq first again =
      (numberRev seq first ((List.range i).filter (inPass rtl late pass)).reverse,
        seq + ((List.range i).filter (inPass rtl late pass)).length,
        first && ((List.range i).filter (inPass rtl late pass)).isEmpty,
        again || (List.range i).any fun i => !inPass rtl late pass i) := by
  induction i generalizing seq first again with
  | zero => simp [revPass, numberRev]
  | succ i ih =>
    rw [revPass, passBelow_step]
    by_cases h : inPass rtl late pass i = true
    · rw [if_pos h, if_pos h, ih]
      simp only [numberRev, List.range_succ, List.filter_append, List.any_append]
      simp [h]
      omega
    · rw [if_neg h, if_neg h, ih]
      simp only [List.range_succ, List.filter_append, List.any_append]
      simp [h]

theorem numberRev_append (seq : Nat) (first : Bool) (a b : List Nat) :
    numberRev seq first (a ++ b) = numberRev seq first a ++ numberRev (seq + a.length) (first && a.isEmpty) b := by
  induction a generalizing seq first with
  | nil => simp [numberRev]
  | cons x a ih =>
    simp only [List.cons_append, numberRev, ih, List.length_cons, List.isEmpty_cons, Bool.and_false, Bool.false_and]
    rw [show seq + 1 + a.length = seq + (a.length + 1) by omega]

theorem numberRev_get (seq : Nat) (first : Bool) (a : List Nat) (k : Nat) :
    (numberRev seq first a)[k]? = a[k]?.map fun i => ⟨i, seq + k, first && decide (k = 0)⟩ := by
  induction a generalizing seq first k with
  | nil => rfl
  | cons x a ih =>
    cases k with
    | zero => simp [numberRev]
    | succ k => simp only [numberRev, List.getElem?_cons_succ, ih]; rw [show seq + 1 + k = seq + (k + 1) by omega]; simp

theorem argsReverse_eq (rtl : Bool) (late : Nat → Bool) (n : Nat) :
    argsReverse rtl late n = numberRev 0 true (order rtl late n).reverse := by
  unfold argsReverse
  rw [revPass_eq, order_eq]
  simp only [Nat.zero_add, Bool.false_or, Bool.true_and]
  rw [revPass_eq]
  have hp : ∀ pass, passFrom rtl late n pass 0 = (List.range n).filter (inPass rtl late pass) := by
    intro pass; unfold passFrom; rw [Nat.sub_zero, List.range_eq_range']
  rw [List.reverse_append, numberRev_append, hp, hp]
  simp only [List.length_reverse, Nat.zero_add, Bool.true_and, List.isEmpty_reverse]
  split
  · rfl
  · rename_i hc
    have := pass_none rtl late n true (by rw [Nat.sub_zero, ← List.range_eq_range']; simpa using hc)
    simp only [Bool.not_true] at this
    rw [hp] at this
    rw [this]
    simp [numberRev]

theorem order_perm (rtl : Bool) (late : Nat → Bool) (n : Nat) : (order rtl late n).Perm (List.range n) := by
  unfold order
  refine List.perm_append_comm.trans ?_
  exact List.filter_append_perm _ _

/-- **C59** Backward, the visitor sees the same arguments with the same marks in exactly the opposite order, numbered
from the end. -/
theorem reverse_order (rtl : Bool) (late : Nat → Bool) (n : Nat) :
    (argsReverse rtl late n).map (fun v => (v.i, v.isLast)) = ((argsForward rtl late n 0).map (fun v => (v.i, v.isLast))).reverse ∧
    (argsReverse rtl late n).map (·.seq) = List.range n := by
  rw [forward_order, argsReverse_eq]
  unfold visits
  rw [List.drop_zero]
  have hlen : (order rtl late n).length = n := by rw [(order_perm rtl late n).length_eq, List.length_range]
  generalize order rtl late n = o at *
  refine ⟨?_, ?_⟩
  · apply List.ext_getElem?
    intro k
    simp only [List.getElem?_map, numberRev_get, Option.map_map]
    rcases Nat.lt_or_ge k n with hk | hk
    · rw [List.getElem?_reverse (show k < o.length by omega),
        List.getElem?_reverse (show k < (List.map (fun v => (v.i, v.isLast)) (number n 0 o)).length by
          rw [List.length_map, number_length]; omega), List.getElem?_map, number_get]
      simp only [List.length_map, number_length, Option.map_map]
      have hm : o.length - 1 - k < o.length := by omega
      rw [List.getElem?_eq_getElem hm]
      simp only [Option.map_some, Function.comp, Option.some.injEq, Prod.mk.injEq, true_and, Bool.true_and]
      rw [Bool.eq_iff_iff]; simp; omega
    · rw [List.getElem?_eq_none (by simp; omega), List.getElem?_eq_none (by simp [number_length]; omega)]; rfl
  · apply List.ext_getElem?
    intro k
    simp only [List.getElem?_map, numberRev_get, Option.map_map]
    rcases Nat.lt_or_ge k n with hk | hk
    · rw [List.getElem?_eq_getElem (by simp; omega), List.getElem?_range hk]; simp
    · rw [List.getElem?_eq_none (by simp; omega), List.getElem?_eq_none (by simp; omega)]; rfl

/-- **C59** Every argument is evaluated exactly once. -/
theorem each_argument_once (rtl : Bool) (late : Nat → Bool) (n : Nat) :
    ((argsForward rtl late n 0).map (·.i)).Perm (List.range n) := by
  rw [forward_order]
  unfold visits
  rw [List.drop_zero]
  have : (number n 0 (order rtl late n)).map (·.i) = order rtl late n := by
    apply List.ext_getElem?
    intro k
    simp only [List.getElem?_map, number_get, Option.map_map]
    cases (order rtl late n)[k]? <;> rfl
  rw [this]
  exact order_perm rtl late n

/-- **C59** No argument passed by value or constant reference is evaluated after one passed by mutable reference;
within each group the order is left to right. -/
theorem mutrefs_last (late : Nat → Bool) (n i j : Nat) (h : i < n) (hj : j < n)
    (hb : (late i = false ∧ late j = true) ∨ (late i = late j ∧ i < j)) :
    ∃ A B C, (argsForward false late n 0).map (·.i) = A ++ i :: B ++ j :: C := by
  rw [forward_order]
  unfold visits
  rw [List.drop_zero]
  have e : (number n 0 (order false late n)).map (·.i) = order false late n := by
    apply List.ext_getElem?
    intro k
    simp only [List.getElem?_map, number_get, Option.map_map]
    cases (order false late n)[k]? <;> rfl
  rw [e]
  unfold order
  simp only [Bool.false_eq_true, if_false]
  have two : ∀ (p : Nat → Bool), p i = true → p j = true → i < j → ∃ A B C, (List.range n).filter p = A ++ i :: B ++ j :: C := by
    intro p hi hj' hij
    have hs : List.range n = List.range i ++ i :: (List.range' (i + 1) (j - i - 1) ++ j :: List.range' (j + 1) (n - j - 1)) := by
      rw [List.range_eq_range', List.range_eq_range']
      have h1 : List.range' 0 n = List.range' 0 i ++ List.range' i (n - i) := by
        have := List.range'_append (s := 0) (m := i) (n := n - i) (step := 1)
        simp only [Nat.zero_add, Nat.one_mul] at this
        rw [this]; congr 1; omega
      have h2 : List.range' (i + 1) (n - i - 1) = List.range' (i + 1) (j - i - 1) ++ List.range' j (n - j) := by
        have := List.range'_append (s := i + 1) (m := j - i - 1) (n := n - j) (step := 1)
        rw [show i + 1 + 1 * (j - i - 1) = j by omega] at this
        rw [this]; congr 1; omega
      rw [h1, show n - i = (n - i - 1) + 1 by omega, List.range'_succ, h2, show n - j = (n - j - 1) + 1 by omega, List.range'_succ]
      simp
    rw [hs]
    refine ⟨(List.range i).filter p, (List.range' (i + 1) (j - i - 1)).filter p, (List.range' (j + 1) (n - j - 1)).filter p, ?_⟩
    rw [List.filter_append, List.filter_cons, if_pos hi, List.filter_append, List.filter_cons, if_pos hj']
    simp
  rcases hb with ⟨h1, h2⟩ | ⟨h1, h2⟩
  · have m1 : i ∈ (List.range n).filter (fun i => !late i) := by simp [h, h1]
    have m2 : j ∈ (List.range n).filter late := by simp [hj, h2]
    obtain ⟨A, B, e1⟩ := List.append_of_mem m1
    obtain ⟨C, D, e2⟩ := List.append_of_mem m2
    exact ⟨A, B ++ C, D, by rw [e1, e2]; simp⟩
  · cases hl : late i
    · obtain ⟨A, B, C, e1⟩ := two (fun i => !late i) (by simp [hl]) (by simp [← h1, hl]) h2
      exact ⟨A, B, C ++ (List.range n).filter late, by rw [e1]; simp⟩
    · obtain ⟨A, B, C, e1⟩ := two late hl (by rw [← h1, hl]) h2
      exact ⟨(List.range n).filter (fun i => !late i) ++ A, B, C, by rw [e1]; simp⟩

/-- `f(mut a, b, mut c, d)`: `b`, `d`, then `a`, `c` -/
example : (argsForward false (fun i => i == 0 || i == 2) 4 0).map (·.i) = [1, 3, 0, 2] := by decide +kernel
/-- right-to-left assignment: the right-hand side first -/
example : (argsForward true (fun _ => false) 2 0).map (·.i) = [1, 0] := by decide +kernel

end Verif.Target
