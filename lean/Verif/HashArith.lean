import Verif.Hash
import Mathlib.Tactic.SplitIfs
import Mathlib.Tactic.Ring
import Mathlib.Data.Nat.ModEq
import Mathlib.Data.Nat.Log
/-!
# Arithmetic of slots and probe distances
-/
namespace Verif.Hash

theorem ctzF_two_pow (k f : Nat) (h : k < f) : ctzF f (2 ^ k) = k := by
  induction k generalizing f with
  | zero =>
    cases f with
    | zero => omega
    | succ f => simp [ctzF]
  | succ k ih =>
    cases f with
    | zero => omega
    | succ f =>
      have e : 2 ^ (k + 1) / 2 = 2 ^ k := by rw [Nat.pow_succ]; omega
      have e2 : 2 ^ (k + 1) % 2 = 0 := by rw [Nat.pow_succ]; omega
      simp only [ctzF, e, e2, if_true, ih f (by omega)]
      omega

/-- `max_probes` of an index with `2^k` slots is `k`. -/
theorem maxProbes_two_pow (k : Nat) : maxProbes (2 ^ k) = k := by
  have hp : 0 < 2 ^ k := Nat.two_pow_pos k
  unfold maxProbes
  rw [if_neg (by omega)]
  exact ctzF_two_pow k _ Nat.lt_two_pow_self

/-- `x & mask` on 32-bit integers, `x = hash + probe` with wrap-around, is the remainder by the length of the index. -/
theorem and_mask_eq (k hash probe : Nat) (hk : k ≤ 31) :
    ((BitVec.ofNat 32 hash + BitVec.ofNat 32 probe) &&& (BitVec.ofNat 32 (2 ^ k) - 1#32)).toNat =
      (hash + probe) % 2 ^ k := by
  have hlt : 2 ^ k < 2 ^ 32 := Nat.pow_lt_pow_right (by omega) (by omega)
  have hpos : 0 < 2 ^ k := Nat.two_pow_pos k
  have hm : (BitVec.ofNat 32 (2 ^ k) - 1#32).toNat = 2 ^ k - 1 := by
    rw [BitVec.toNat_sub, BitVec.toNat_ofNat, BitVec.toNat_ofNat, Nat.mod_eq_of_lt hlt]
    omega
  rw [BitVec.toNat_and, hm, Nat.and_two_pow_sub_one_eq_mod, BitVec.toNat_add, BitVec.toNat_ofNat, BitVec.toNat_ofNat,
    Nat.mod_mod_of_dvd _ (Nat.pow_dvd_pow 2 (by omega : k ≤ 32))]
  rw [Nat.add_mod, Nat.mod_mod_of_dvd _ (Nat.pow_dvd_pow 2 (by omega : k ≤ 32)),
    Nat.mod_mod_of_dvd _ (Nat.pow_dvd_pow 2 (by omega : k ≤ 32)), ← Nat.add_mod]

/-- `(i - hash) & mask` on 32-bit integers is `dist`. -/
theorem sub_and_mask_eq (k i hash : Nat) (hk : k ≤ 31) :
    ((BitVec.ofNat 32 i - BitVec.ofNat 32 hash) &&& (BitVec.ofNat 32 (2 ^ k) - 1#32)).toNat = dist (2 ^ k) i hash := by
  have hlt : 2 ^ k < 2 ^ 32 := Nat.pow_lt_pow_right (by omega) (by omega)
  have hpos : 0 < 2 ^ k := Nat.two_pow_pos k
  have hm : (BitVec.ofNat 32 (2 ^ k) - 1#32).toNat = 2 ^ k - 1 := by
    rw [BitVec.toNat_sub, BitVec.toNat_ofNat, BitVec.toNat_ofNat, Nat.mod_eq_of_lt hlt]
    omega
  have hd : 2 ^ k ∣ 2 ^ 32 := Nat.pow_dvd_pow 2 (by omega : k ≤ 32)
  rw [BitVec.toNat_and, hm, Nat.and_two_pow_sub_one_eq_mod, BitVec.toNat_sub, BitVec.toNat_ofNat, BitVec.toNat_ofNat,
    Nat.mod_mod_of_dvd _ hd]
  unfold dist
  -- both sides plus `hash` are `i` modulo the length
  obtain ⟨c, hc⟩ := hd
  have hh : hash % 2 ^ 32 % 2 ^ k = hash % 2 ^ k := Nat.mod_mod_of_dvd _ ⟨c, hc⟩
  have hi : i % 2 ^ 32 % 2 ^ k = i % 2 ^ k := Nat.mod_mod_of_dvd _ ⟨c, hc⟩
  have h1 : hash % 2 ^ 32 < 2 ^ 32 := Nat.mod_lt _ (by decide)
  have h2 : hash % 2 ^ k < 2 ^ k := Nat.mod_lt _ hpos
  generalize hA : hash % 2 ^ 32 = A at *
  generalize hB : i % 2 ^ 32 = B at *
  have key : (2 ^ 32 - A + B) + A ≡ (i + 2 ^ k - hash % 2 ^ k) + A [MOD 2 ^ k] := by
    have e1 : (2 ^ 32 - A + B) + A = 2 ^ 32 + B := by omega
    rw [e1]
    have e2 : (i + 2 ^ k - hash % 2 ^ k) + A ≡ (i + 2 ^ k - hash % 2 ^ k) + hash % 2 ^ k [MOD 2 ^ k] := by
      apply Nat.ModEq.add_left
      unfold Nat.ModEq
      rw [hh, Nat.mod_mod]
    refine Nat.ModEq.trans ?_ e2.symm
    have e3 : (i + 2 ^ k - hash % 2 ^ k) + hash % 2 ^ k = i + 2 ^ k := by omega
    rw [e3, hc]
    unfold Nat.ModEq
    rw [Nat.mul_add_mod, Nat.add_mod_right, hi]
  exact Nat.ModEq.add_right_cancel' A key

theorem dist_lt {L : Nat} (hL : 0 < L) (p h : Nat) : dist L p h < L := Nat.mod_lt _ hL

/-- The slot reached after `dist` probes. -/
theorem slot_dist {L p : Nat} (hp : p < L) (h : Nat) : (h + dist L p h) % L = p := by
  unfold dist
  have h2 : h % L < L := Nat.mod_lt _ (by omega)
  rw [Nat.add_mod, Nat.mod_mod]
  by_cases c : h % L ≤ p
  · rw [show p + L - h % L = (p - h % L) + L by omega, Nat.add_mod_right, Nat.mod_eq_of_lt (show p - h % L < L by omega),
      show h % L + (p - h % L) = p by omega, Nat.mod_eq_of_lt hp]
  · rw [Nat.mod_eq_of_lt (show p + L - h % L < L by omega), show h % L + (p + L - h % L) = p + L by omega,
      Nat.add_mod_right, Nat.mod_eq_of_lt hp]

theorem dist_slot {L : Nat} (h t : Nat) (ht : t < L) : dist L ((h + t) % L) h = t := by
  unfold dist
  have h2 : h % L < L := Nat.mod_lt _ (by omega)
  rw [Nat.add_mod, Nat.mod_eq_of_lt ht]
  by_cases c : h % L + t < L
  · rw [Nat.mod_eq_of_lt c, show h % L + t + L - h % L = t + L by omega, Nat.add_mod_right, Nat.mod_eq_of_lt ht]
  · have e : (h % L + t) % L = h % L + t - L := by
      rw [Nat.mod_eq_sub_mod (by omega), Nat.mod_eq_of_lt (by omega)]
    rw [e, show h % L + t - L + L - h % L = t by omega, Nat.mod_eq_of_lt ht]

/-- The slot determines the distance. -/
theorem slot_inj {L h t u : Nat} (ht : t < L) (hu : u < L) (e : (h + t) % L = (h + u) % L) : t = u := by
  rw [← dist_slot h t ht, ← dist_slot h u hu, e]

theorem dist_eq_of_slot {L p h t : Nat} (ht : t < L) (e : (h + t) % L = p) : dist L p h = t := by
  rw [← e, dist_slot h t ht]

/-- One slot further the distance is one more, or 0 at the ideal slot. -/
theorem dist_next {L p : Nat} (hp : p < L) (h : Nat) :
    dist L ((p + 1) % L) h = if dist L p h + 1 = L then 0 else dist L p h + 1 := by
  have hL : 0 < L := by omega
  have hd := dist_lt hL p h
  have e : (p + 1) % L = (h + (dist L p h + 1)) % L := by
    conv_lhs => rw [← slot_dist hp h]
    rw [Nat.mod_add_mod, Nat.add_assoc]
  split_ifs with c
  · apply dist_eq_of_slot hL
    rw [e, c, Nat.add_zero, Nat.add_mod_right]
  · rw [e, dist_slot _ _ (by omega)]

theorem prev_next {L p : Nat} (hp : p < L) : ((p + 1) % L + L - 1) % L = p := by
  by_cases c : p + 1 = L
  · rw [c, Nat.mod_self, Nat.zero_add, ← c, Nat.mod_eq_of_lt (by omega)]; omega
  · rw [Nat.mod_eq_of_lt (show p + 1 < L by omega), show p + 1 + L - 1 = p + L by omega, Nat.add_mod_right,
      Nat.mod_eq_of_lt hp]

theorem next_prev {L p : Nat} (hp : p < L) : ((p + L - 1) % L + 1) % L = p := by
  rw [Nat.mod_add_mod, show p + L - 1 + 1 = p + L by omega, Nat.add_mod_right, Nat.mod_eq_of_lt hp]

theorem prev_slot {L : Nat} (hL : 0 < L) (h t : Nat) (ht : 0 < t) : ((h + t) % L + L - 1) % L = (h + (t - 1)) % L := by
  have h1 : (h + t) % L = ((h + (t - 1)) % L + 1) % L := by
    rw [Nat.mod_add_mod, Nat.add_assoc, Nat.sub_add_cancel ht]
  rw [h1, prev_next (Nat.mod_lt _ hL)]

/-- The distance from the ideal slot depends on the hash only modulo the length. -/
theorem dist_mod (L p h : Nat) : dist L p (h % L) = dist L p h := by
  unfold dist; rw [Nat.mod_mod]

theorem dist_zero_iff {L p : Nat} (hp : p < L) (h : Nat) : dist L p h = 0 ↔ h % L = p := by
  constructor
  · intro e
    have := slot_dist hp h
    rwa [e, Nat.add_zero] at this
  · intro e
    exact dist_eq_of_slot (by omega) (by simpa using e)

end Verif.Hash
