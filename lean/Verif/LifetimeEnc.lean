import Verif.LifetimeSpec
import Mathlib.Tactic.Ring
import Mathlib.Tactic.SplitIfs
/-!
# Encoding and decoding are inverse
-/
namespace Verif.Lifetime
open Verif

theorem leb_small {n : Nat} (h : n < 128) : leb n = [BitVec.ofNat 8 n] := by rw [leb, if_pos h]
theorem leb_big {n : Nat} (h : ¬ n < 128) : leb n = BitVec.ofNat 8 (128 + n % 128) :: leb (n / 128) := by
  rw [leb, if_neg h]

theorem leb_ne_nil (n : Nat) : leb n ≠ [] := by
  by_cases h : n < 128
  · rw [leb_small h]; simp
  · rw [leb_big h]; simp

/-- `append7bit` writes the 7-bit encoding. -/
theorem append7bit_eq (s : Str) (v : BitVec 32) : append7bit s v = s ++ leb v.toNat := by
  induction hn : v.toNat using Nat.strongRecOn generalizing v s with
  | _ n ih =>
    subst hn
    rw [append7bit]
    by_cases h : v.toNat ≥ 128
    · have hd : (v >>> 7).toNat = v.toNat / 128 := by rw [BitVec.toNat_ushiftRight, Nat.shiftRight_eq_div_pow]
      rw [dif_pos h, ih _ (by rw [hd]; omega) _ _ rfl, hd, leb_big (n := v.toNat) (by omega), List.append_assoc]
      congr 1
      show [_] ++ _ = _
      rw [List.singleton_append]
      congr 1
      apply BitVec.eq_of_toNat_eq
      rw [BitVec.toNat_setWidth, BitVec.toNat_or, BitVec.toNat_ofNat, BitVec.toNat_ofNat]
      have h1 : (v.toNat ||| 128) % 2 ^ 8 = (v.toNat % 2 ^ 8) ||| 128 := by
        rw [Nat.or_mod_two_pow]
      rw [show 128 % 2 ^ 32 = 128 from rfl, h1]
      have h2 : ∀ x < 256, x ||| 128 = (128 + x % 128) % 2 ^ 8 := by decide +kernel
      rw [h2 (v.toNat % 2 ^ 8) (by omega)]
      congr 2
      omega
    · rw [dif_neg h, leb_small (by omega)]
      congr 2

theorem or_shift (r x : BitVec 32) (s : Nat) (hr : r.toNat < 2 ^ s) (hx : x.toNat * 2 ^ s < 2 ^ 32) :
    (r ||| (x <<< s)).toNat = r.toNat + x.toNat * 2 ^ s := by
  rw [BitVec.toNat_or, BitVec.toNat_shiftLeft, Nat.shiftLeft_eq, Nat.mod_eq_of_lt hx, Nat.mul_comm x.toNat,
    Nat.or_comm, ← Nat.two_pow_add_eq_or_of_lt hr, Nat.add_comm]

theorem ext_low : ∀ c : Byte, c.toNat < 128 → (c.signExtend 32).toNat = c.toNat := by decide
theorem ext_high : ∀ c : Byte, 128 ≤ c.toNat → ((c.signExtend 32) &&& 0x7f#32).toNat = c.toNat - 128 := by decide

/-- Reading what `append7bit` wrote: the value, and exactly its bytes; all shifts are below 32. -/
theorem p7_leb (n : Nat) (suf : Str) (s : Nat) (r : BitVec 32) (c : Byte) (hs : s < 32) (hr : r.toNat < 2 ^ s)
    (hv : n * 2 ^ s < 2 ^ 32) :
    ∃ v, p7 (leb n ++ suf) s r c = (v, (leb n).length) ∧ v.toNat = r.toNat + n * 2 ^ s := by
  induction n using Nat.strongRecOn generalizing s r c with
  | _ n ih =>
    by_cases h : n < 128
    · rw [leb_small h]
      have hc : (BitVec.ofNat 8 n).toNat = n := by rw [BitVec.toNat_ofNat]; omega
      rw [List.singleton_append]
      unfold p7
      rw [if_neg (by omega)]
      refine ⟨_, rfl, ?_⟩
      rw [or_shift _ _ _ hr (by rw [ext_low _ (by omega), hc]; exact hv), ext_low _ (by omega), hc]
    · rw [leb_big h]
      have hc : (BitVec.ofNat 8 (128 + n % 128)).toNat = 128 + n % 128 := by rw [BitVec.toNat_ofNat]; omega
      generalize BitVec.ofNat 8 (128 + n % 128) = b at hc
      have hs25 : s + 7 < 32 := by
        apply Decidable.byContradiction; intro hcon
        have : 2 ^ 25 ≤ 2 ^ s := Nat.pow_le_pow_right (by decide) (by omega)
        have := Nat.mul_le_mul (show 128 ≤ n by omega) this
        omega
      have hpow : 2 ^ (s + 7) = 2 ^ s * 128 := by rw [Nat.pow_add]
      have hmod : n % 128 * 2 ^ s < 2 ^ 32 := Nat.lt_of_le_of_lt (Nat.mul_le_mul_right _ (Nat.mod_le _ _)) hv
      have hsplit : n * 2 ^ s = n % 128 * 2 ^ s + n / 128 * (2 ^ s * 128) := by
        conv => lhs; rw [← Nat.mod_add_div n 128, Nat.add_mul]
        congr 1
        ring
      have hx : ((b.signExtend 32) &&& 0x7f#32).toNat = n % 128 := by rw [ext_high _ (by omega)]; omega
      have hor := or_shift r ((b.signExtend 32) &&& 0x7f#32) s hr (by rw [hx]; exact hmod)
      rw [hx] at hor
      obtain ⟨v, e, hvv⟩ := ih (n / 128) (by omega) (s + 7) (r ||| ((b.signExtend 32 &&& 0x7f#32) <<< s)) b hs25
        (by
          rw [hor, hpow]
          have : n % 128 * 2 ^ s ≤ 127 * 2 ^ s := Nat.mul_le_mul_right _ (by omega)
          omega)
        (by rw [hpow]; omega)
      refine ⟨v, ?_, ?_⟩
      · rw [List.cons_append]
        unfold p7
        rw [if_pos (by omega), e]
        rfl
      · rw [hvv, hor, hpow]; omega

theorem parse7bit_leb (pre suf : Str) (n : Nat) (hn : n < 2 ^ 32) :
    ∃ v, parse7bit (pre ++ leb n ++ suf) pre.length = (v, pre.length + (leb n).length) ∧ v.toNat = n := by
  obtain ⟨v, e, hv⟩ := p7_leb n suf 0 0#32 0#8 (by omega) (by simp) (by omega)
  refine ⟨v, ?_, ?_⟩
  · unfold parse7bit
    rw [List.append_assoc, List.drop_left' rfl, e]
  · rw [hv]; simp

/-- The encoding of all but the last step. -/
def encHead : SPath → Str
  | [] => []
  | [_] => []
  | sr :: p => leb (2 * sr.flatOffset + 1) ++ encHead p

/-- What can be encoded: valid paths, and the path of `whole`. -/
def EncPath : SPath → Prop
  | [] => False
  | [sr] => sr.flatCount < 2 ^ 31 ∧ sr.flatOffset < 2 ^ 31
  | sr :: p => sr.flatCount = 1 ∧ sr.flatOffset < 2 ^ 31 ∧ EncPath p

theorem EncPath.cons {sr b : SubRegion} {p : SPath} : EncPath (sr :: b :: p) ↔
    sr.flatCount = 1 ∧ sr.flatOffset < 2 ^ 31 ∧ EncPath (b :: p) := Iff.rfl

theorem ValidPath.cons {sr b : SubRegion} {p : SPath} : ValidPath (sr :: b :: p) ↔
    sr.flatCount = 1 ∧ sr.flatOffset < 2 ^ 31 ∧ ValidPath (b :: p) := Iff.rfl

theorem ValidPath.enc {p : SPath} (h : ValidPath p) : EncPath p := by
  induction p with
  | nil => exact h
  | cons a p ih =>
    cases p with
    | nil => exact h.2
    | cons b p => exact ⟨h.1, h.2.1, ih h.2.2⟩

/-- What can be encoded as the paths of a region. -/
def EncPaths (ps : Paths) : Prop := ps ≠ [] ∧ ∀ p ∈ ps, EncPath p

theorem ValidPaths.enc {ps : Paths} (h : ValidPaths ps) : EncPaths ps := by
  rcases h with rfl | ⟨h, hv⟩
  · refine ⟨by simp [whole], ?_⟩
    intro p hp
    simp only [whole, List.mem_singleton] at hp
    subst hp
    exact ⟨by decide, by decide⟩
  · exact ⟨h, fun p hp => (hv p hp).enc⟩

theorem raw_toNat {n : Nat} (h : n < 2 ^ 31) (b : BitVec 32) (hb : b = 0#32 ∨ b = 1#32) :
    (BitVec.ofNat 32 n <<< 1 ||| b).toNat = 2 * n + b.toNat := by
  have h2 : b.toNat < 2 ^ 1 := by rcases hb with rfl | rfl <;> decide
  have hx : (BitVec.ofNat 32 n).toNat = n := by rw [BitVec.toNat_ofNat]; omega
  have := or_shift b (BitVec.ofNat 32 n) 1 h2 (by rw [hx]; omega)
  rw [BitVec.or_comm, this, hx]
  omega

theorem appendSub_mid (s : Str) (c o : Nat) (ho : o < 2 ^ 31) (last : Bool) :
    appendSubRegion s c o false last = s ++ leb (2 * o + 1) := by
  unfold appendSubRegion
  simp only [Bool.false_eq_true, if_false]
  rw [append7bit_eq, raw_toNat ho _ (Or.inr rfl)]
  rfl

theorem appendSub_last (s : Str) (c o : Nat) (hc : c < 2 ^ 31) (ho : o < 2 ^ 31) (last : Bool) :
    appendSubRegion s c o true last = s ++ leb (2 * o) ++ leb (2 * c + if last then 0 else 1) := by
  unfold appendSubRegion
  simp only [if_true]
  rw [append7bit_eq, append7bit_eq, raw_toNat ho _ (Or.inl rfl)]
  congr 2
  cases last
  · exact raw_toNat hc _ (Or.inr rfl)
  · exact raw_toNat hc _ (Or.inl rfl)

theorem appendPath_eq (last : Bool) (p : SPath) (h : EncPath p) (s : Str) : appendPath last s p = s ++ encPath last p := by
  induction p generalizing s with
  | nil => exact h.elim
  | cons a p ih =>
    cases p with
    | nil =>
      show appendSubRegion _ _ _ _ _ = _
      rw [appendSub_last _ _ _ h.1 h.2, List.append_assoc]
      rfl
    | cons b p =>
      show appendPath last (appendSubRegion _ _ _ _ _) (b :: p) = s ++ (leb _ ++ encPath last (b :: p))
      rw [appendSub_mid _ _ _ h.2.1, ih h.2.2, List.append_assoc]

theorem appendPaths_eq (ps : Paths) (h : ∀ p ∈ ps, EncPath p) (s : Str) : appendPaths s ps = s ++ encPaths ps := by
  induction ps generalizing s with
  | nil => show s = s ++ []; simp
  | cons p ps ih =>
    cases ps with
    | nil =>
      show appendPath true s p = s ++ encPath true p
      exact appendPath_eq true p (h p (by simp)) s
    | cons p' ps =>
      show appendPaths (appendPath false s p) (p' :: ps) = s ++ (encPath false p ++ encPaths (p' :: ps))
      rw [appendPath_eq false p (h p (by simp)), ih (fun q hq => h q (by simp [hq])), List.append_assoc]

theorem encPath_head (last : Bool) (p : SPath) (h : p ≠ []) :
    ∃ sr, p.getLast? = some sr ∧
      encPath last p = encHead p ++ (leb (2 * sr.flatOffset) ++ leb (2 * sr.flatCount + if last then 0 else 1)) := by
  induction p with
  | nil => exact absurd rfl h
  | cons a p ih =>
    cases p with
    | nil => exact ⟨a, rfl, rfl⟩
    | cons b p =>
      obtain ⟨sr, e, en⟩ := ih (by simp)
      refine ⟨sr, by rw [List.getLast?_cons_cons]; exact e, ?_⟩
      show leb _ ++ encPath last (b :: p) = (leb _ ++ encHead (b :: p)) ++ _
      rw [en, List.append_assoc]

/-- What `walkPaths` reports about an encoded path that begins at offset `o`. -/
def infoOf (o : Nat) (last : Bool) (p : SPath) : PathInfo :=
  ⟨p, o + (encHead p).length, last, o + (encPath last p).length⟩

theorem readSub_mid (pre suf : Str) (o : Nat) (ho : o < 2 ^ 31) :
    ∃ b, readSub (pre ++ leb (2 * o + 1) ++ suf) pre.length =
      (⟨1, o⟩, false, b, pre.length + (leb (2 * o + 1)).length) := by
  obtain ⟨v, e, hv⟩ := parse7bit_leb pre suf (2 * o + 1) (by omega)
  unfold readSub
  rw [e]
  simp only
  have h1 : (v.toNat % 2 == 0) = false := by rw [hv]; rw [beq_eq_false_iff_ne]; omega
  rw [h1]
  simp only [Bool.false_eq_true, if_false]
  refine ⟨(3#32).toNat % 2 == 0, ?_⟩
  congr 1
  congr 1
  rw [BitVec.toNat_ushiftRight, Nat.shiftRight_eq_div_pow, hv]
  omega

theorem readSub_last (pre suf : Str) (o c : Nat) (ho : o < 2 ^ 31) (hc : c < 2 ^ 31) (last : Bool) :
    readSub (pre ++ (leb (2 * o) ++ leb (2 * c + if last then 0 else 1)) ++ suf) pre.length =
      (⟨c, o⟩, true, last, pre.length + (leb (2 * o) ++ leb (2 * c + if last then 0 else 1)).length) := by
  have hcb : 2 * c + (if last then 0 else 1) < 2 ^ 32 := by split_ifs <;> omega
  obtain ⟨v, e, hv⟩ := parse7bit_leb pre (leb (2 * c + if last then 0 else 1) ++ suf) (2 * o) (by omega)
  obtain ⟨w, e', hw⟩ := parse7bit_leb (pre ++ leb (2 * o)) suf (2 * c + if last then 0 else 1) hcb
  have a1 : pre ++ (leb (2 * o) ++ leb (2 * c + if last then 0 else 1)) ++ suf =
      pre ++ leb (2 * o) ++ (leb (2 * c + if last then 0 else 1) ++ suf) := by simp
  have a2 : pre ++ (leb (2 * o) ++ leb (2 * c + if last then 0 else 1)) ++ suf =
      pre ++ leb (2 * o) ++ leb (2 * c + if last then 0 else 1) ++ suf := by simp
  rw [← a1] at e
  rw [← a2, List.length_append] at e'
  unfold readSub
  rw [e]
  simp only
  have h1 : (v.toNat % 2 == 0) = true := by rw [hv, beq_iff_eq]; omega
  rw [h1]
  simp only [if_true]
  rw [e']
  simp only
  have h2 : (w.toNat % 2 == 0) = last := by
    rw [hw]
    cases last
    · simp only [Bool.false_eq_true, if_false]; rw [beq_eq_false_iff_ne]; omega
    · simp only [if_true]; rw [beq_iff_eq]; omega
  have h3 : (w >>> 1).toNat = c := by
    rw [BitVec.toNat_ushiftRight, Nat.shiftRight_eq_div_pow, hw]; split_ifs <;> omega
  have h4 : (v >>> 1).toNat = o := by
    rw [BitVec.toNat_ushiftRight, Nat.shiftRight_eq_div_pow, hv]; omega
  rw [h2, h3, h4, List.length_append, Nat.add_assoc]

theorem readPath_enc (last : Bool) (p : SPath) (h : EncPath p) (pre suf : Str) (n : Nat) (hn : p.length ≤ n) :
    readPath (pre ++ encPath last p ++ suf) n pre.length = some (infoOf pre.length last p) := by
  induction p generalizing pre n with
  | nil => exact h.elim
  | cons a p ih =>
    cases n with
    | zero => simp at hn
    | succ n =>
      cases p with
      | nil =>
        have := readSub_last pre suf a.flatOffset a.flatCount h.2 h.1 last
        have e1 : encPath last [a] = leb (2 * a.flatOffset) ++ leb (2 * a.flatCount + if last then 0 else 1) := rfl
        unfold readPath infoOf
        rw [e1, this]
        rfl
      | cons b p =>
        obtain ⟨x, hx⟩ := readSub_mid pre (encPath last (b :: p) ++ suf) a.flatOffset h.2.1
        have e1 : pre ++ encPath last (a :: b :: p) ++ suf = pre ++ leb (2 * a.flatOffset + 1) ++ (encPath last (b :: p) ++ suf) := by
          show pre ++ (leb _ ++ encPath last (b :: p)) ++ suf = _
          simp
        unfold readPath
        rw [e1, hx]
        simp only [Bool.false_eq_true, if_false]
        have := ih h.2.2 (pre ++ leb (2 * a.flatOffset + 1)) n (by simpa using hn)
        rw [List.length_append, List.append_assoc (pre ++ _)] at this
        rw [this]
        simp only [Option.bind_eq_bind, Option.bind_some, infoOf, Option.some.injEq, PathInfo.mk.injEq]
        refine ⟨?_, ?_, trivial, ?_⟩
        · congr 1
          cases a; simp only [SubRegion.mk.injEq, and_true]; exact h.1.symm
        · show _ = pre.length + (leb _ ++ encHead (b :: p)).length
          rw [List.length_append]; omega
        · show _ = pre.length + (leb _ ++ encPath last (b :: p)).length
          rw [List.length_append]; omega

/-- What `walkPaths` reports about encoded paths that begin at offset `o`. -/
def infosOf (o : Nat) : Paths → List (Nat × PathInfo)
  | [] => []
  | [p] => [(o, infoOf o true p)]
  | p :: ps => (o, infoOf o false p) :: infosOf (o + (encPath false p).length) ps

theorem encPath_length (last : Bool) (p : SPath) : p.length ≤ (encPath last p).length := by
  induction p with
  | nil => simp
  | cons a p ih =>
    have h1 : ∀ n, 1 ≤ (leb n).length := fun n => List.length_pos_iff.mpr (leb_ne_nil n)
    cases p with
    | nil =>
      show 1 ≤ (leb _ ++ leb _).length
      rw [List.length_append]; have := h1 (2 * a.flatOffset); omega
    | cons b p =>
      show _ ≤ (leb _ ++ encPath last (b :: p)).length
      rw [List.length_append]; have := h1 (2 * a.flatOffset + 1); simp only [List.length_cons] at ih ⊢; omega

theorem encPaths_length (ps : Paths) (h : ∀ p ∈ ps, p ≠ []) : ps.length ≤ (encPaths ps).length := by
  induction ps with
  | nil => simp
  | cons p ps ih =>
    have hp : 1 ≤ p.length := List.length_pos_iff.mpr (h p (by simp))
    cases ps with
    | nil =>
      show 1 ≤ (encPath true p).length
      exact hp.trans (encPath_length _ _)
    | cons p' ps =>
      show _ ≤ (encPath false p ++ encPaths (p' :: ps)).length
      have := ih (fun q hq => h q (by simp [hq]))
      have := encPath_length false p
      rw [List.length_append]; simp only [List.length_cons] at *; omega

theorem EncPath.ne_nil {p : SPath} (h : EncPath p) : p ≠ [] := by rintro rfl; exact h

theorem readPaths_enc (ps : Paths) (h : EncPaths ps) (pre suf : Str) (n : Nat) (hn : ps.length ≤ n) :
    readPaths (pre ++ encPaths ps ++ suf) n pre.length =
      some (infosOf pre.length ps, pre.length + (encPaths ps).length) := by
  obtain ⟨h0, hp⟩ := h
  induction ps generalizing pre n with
  | nil => exact absurd rfl h0
  | cons p ps ih =>
    cases n with
    | zero => simp at hn
    | succ n =>
      cases ps with
      | nil =>
        have e := readPath_enc true p (hp p (by simp)) pre suf ((pre ++ encPath true p ++ suf).length + 2)
          (by have := encPath_length true p; simp only [List.length_append]; omega)
        have e1 : encPaths [p] = encPath true p := rfl
        unfold readPaths
        rw [e1, e]
        rfl
      | cons p' ps =>
        have e1 : pre ++ encPaths (p :: p' :: ps) ++ suf = pre ++ encPath false p ++ (encPaths (p' :: ps) ++ suf) := by
          show pre ++ (encPath false p ++ encPaths (p' :: ps)) ++ suf = _
          simp
        have e := readPath_enc false p (hp p (by simp)) pre (encPaths (p' :: ps) ++ suf)
          ((pre ++ encPath false p ++ (encPaths (p' :: ps) ++ suf)).length + 2)
          (by have := encPath_length false p; simp only [List.length_append]; omega)
        unfold readPaths
        rw [e1, e]
        simp only [Option.bind_eq_bind, Option.bind_some, infoOf, Bool.false_eq_true, if_false]
        have := ih (pre ++ encPath false p) n (by simpa using hn) (by simp) (fun q hq => hp q (by simp [hq]))
        rw [List.length_append, List.append_assoc (pre ++ _)] at this
        rw [this]
        simp only [Option.bind_some, Option.some.injEq, Prod.mk.injEq]
        refine ⟨rfl, ?_⟩
        show _ = pre.length + (encPath false p ++ encPaths (p' :: ps)).length
        rw [List.length_append]; omega

/-- Walking over encoded paths, wherever they are in the string. -/
theorem walkPaths_enc (ps : Paths) (h : EncPaths ps) (pre suf : Str) :
    walkPaths (pre ++ encPaths ps ++ suf) pre.length =
      some (infosOf pre.length ps, pre.length + (encPaths ps).length) := by
  unfold walkPaths
  apply readPaths_enc ps h
  have := encPaths_length ps (fun p hp => (h.2 p hp).ne_nil)
  simp only [List.length_append]; omega

theorem infosOf_paths (o : Nat) (ps : Paths) : (infosOf o ps).map (fun p => p.2.path) = ps := by
  induction ps generalizing o with
  | nil => rfl
  | cons p ps ih =>
    cases ps with
    | nil => rfl
    | cons p' ps =>
      show _ :: List.map _ (infosOf _ (p' :: ps)) = _
      rw [ih]; rfl

/-- Decoding an encoding. -/
theorem parsePaths_enc (ps : Paths) (h : EncPaths ps) : parsePaths (encPaths ps) = some ps := by
  have := walkPaths_enc ps h [] []
  rw [List.nil_append, List.append_nil] at this
  unfold parsePaths
  rw [List.length_nil] at this
  rw [this]
  simp only [Option.bind_eq_bind, Option.bind_some, infosOf_paths]

theorem encPaths_inj {a b : Paths} (ha : EncPaths a) (hb : EncPaths b) (h : encPaths a = encPaths b) : a = b := by
  have := parsePaths_enc a ha
  rw [h, parsePaths_enc b hb] at this
  exact (Option.some.inj this).symm

theorem encPaths_whole : encPaths whole = SR_empty := by
  show leb 0 ++ leb 0 = _
  rw [leb_small (by omega)]; rfl

end Verif.Lifetime
