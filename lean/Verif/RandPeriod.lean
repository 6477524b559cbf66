import Verif.Rand
import Verif.RandData
import Verif.Gf2
import Mathlib.Data.Finite.Defs
import Mathlib.Data.Fintype.EquivFin
import Mathlib.Tactic.NormNum.Prime
import Mathlib.Tactic.IntervalCases
/-!
# C26: the random generators have full period
-/
namespace Verif.Rand
open Verif

/-! ## The generators are linear, bijective and of full period -/

theorem shr_xor {w : Nat} (x y : BitVec w) (k : Nat) : (x ^^^ y) >>> k = (x >>> k) ^^^ (y >>> k) := by
  apply BitVec.eq_of_getLsbD_eq; intro i _; simp [BitVec.getLsbD_ushiftRight]

theorem shl_xor {w : Nat} (x y : BitVec w) (k : Nat) : (x ^^^ y) <<< k = (x <<< k) ^^^ (y <<< k) := by
  apply BitVec.eq_of_getLsbD_eq; intro i hi
  simp only [BitVec.getLsbD_shiftLeft, BitVec.getLsbD_xor, hi]
  by_cases h : i < k <;> simp [h]

theorem xor4 {w : Nat} (a b c d : BitVec w) : (a ^^^ b) ^^^ (c ^^^ d) = (a ^^^ c) ^^^ (b ^^^ d) := by
  apply BitVec.eq_of_getLsbD_eq; intro i _
  simp only [BitVec.getLsbD_xor]
  cases a.getLsbD i <;> cases b.getLsbD i <;> cases c.getLsbD i <;> cases d.getLsbD i <;> rfl

theorem step64_xor (x y : BitVec 64) : step64 (x ^^^ y) = step64 x ^^^ step64 y := by
  have a : ∀ x y : BitVec 64, (x ^^^ y) ^^^ ((x ^^^ y) >>> 12) = (x ^^^ (x >>> 12)) ^^^ (y ^^^ (y >>> 12)) := by
    intro x y; rw [shr_xor, xor4]
  have b : ∀ x y : BitVec 64, (x ^^^ y) ^^^ ((x ^^^ y) <<< 25) = (x ^^^ (x <<< 25)) ^^^ (y ^^^ (y <<< 25)) := by
    intro x y; rw [shl_xor, xor4]
  have c : ∀ x y : BitVec 64, (x ^^^ y) ^^^ ((x ^^^ y) >>> 27) = (x ^^^ (x >>> 27)) ^^^ (y ^^^ (y >>> 27)) := by
    intro x y; rw [shr_xor, xor4]
  unfold step64
  simp only [a, b, c]

theorem step32_xor (x y : BitVec 32) : step32 (x ^^^ y) = step32 x ^^^ step32 y := by
  have a : ∀ x y : BitVec 32, (x ^^^ y) ^^^ ((x ^^^ y) <<< 13) = (x ^^^ (x <<< 13)) ^^^ (y ^^^ (y <<< 13)) := by
    intro x y; rw [shl_xor, xor4]
  have b : ∀ x y : BitVec 32, (x ^^^ y) ^^^ ((x ^^^ y) >>> 17) = (x ^^^ (x >>> 17)) ^^^ (y ^^^ (y >>> 17)) := by
    intro x y; rw [shr_xor, xor4]
  have c : ∀ x y : BitVec 32, (x ^^^ y) ^^^ ((x ^^^ y) <<< 5) = (x ^^^ (x <<< 5)) ^^^ (y ^^^ (y <<< 5)) := by
    intro x y; rw [shl_xor, xor4]
  unfold step32
  simp only [a, b, c]

theorem check64 : Gf2.check 64 (Gf2.matrix step64) inv64 = true := by decide +kernel
theorem check32 : Gf2.check 32 (Gf2.matrix step32) inv32 = true := by decide +kernel

theorem primes64 (p : Nat) (hp : p.Prime) (h : p ∣ 2 ^ 64 - 1) : p ∈ inv64.map Prod.fst := by
  have e : 2 ^ 64 - 1 = 3 * (5 * (17 * (257 * (641 * (65537 * 6700417))))) := by norm_num
  rw [e] at h
  have : p = 3 ∨ p = 5 ∨ p = 17 ∨ p = 257 ∨ p = 641 ∨ p = 65537 ∨ p = 6700417 := by
    simp only [hp.dvd_mul] at h
    have k : ∀ q, Nat.Prime q → p ∣ q → p = q := fun q hq hd => (Nat.prime_dvd_prime_iff_eq hp hq).1 hd
    rcases h with h | h | h | h | h | h | h
    · exact Or.inl (k _ (by norm_num) h)
    · exact Or.inr (Or.inl (k _ (by norm_num) h))
    · exact Or.inr (Or.inr (Or.inl (k _ (by norm_num) h)))
    · exact Or.inr (Or.inr (Or.inr (Or.inl (k _ (by norm_num) h))))
    · exact Or.inr (Or.inr (Or.inr (Or.inr (Or.inl (k _ (by norm_num) h)))))
    · exact Or.inr (Or.inr (Or.inr (Or.inr (Or.inr (Or.inl (k _ (by norm_num) h))))))
    · exact Or.inr (Or.inr (Or.inr (Or.inr (Or.inr (Or.inr (k _ (by norm_num) h))))))
  rcases this with rfl | rfl | rfl | rfl | rfl | rfl | rfl <;> simp [inv64]

theorem primes32 (p : Nat) (hp : p.Prime) (h : p ∣ 2 ^ 32 - 1) : p ∈ inv32.map Prod.fst := by
  have e : 2 ^ 32 - 1 = 3 * (5 * (17 * (257 * 65537))) := by norm_num
  rw [e] at h
  have : p = 3 ∨ p = 5 ∨ p = 17 ∨ p = 257 ∨ p = 65537 := by
    simp only [hp.dvd_mul] at h
    have k : ∀ q, Nat.Prime q → p ∣ q → p = q := fun q hq hd => (Nat.prime_dvd_prime_iff_eq hp hq).1 hd
    rcases h with h | h | h | h | h
    · exact Or.inl (k _ (by norm_num) h)
    · exact Or.inr (Or.inl (k _ (by norm_num) h))
    · exact Or.inr (Or.inr (Or.inl (k _ (by norm_num) h)))
    · exact Or.inr (Or.inr (Or.inr (Or.inl (k _ (by norm_num) h))))
    · exact Or.inr (Or.inr (Or.inr (Or.inr (k _ (by norm_num) h))))
  rcases this with rfl | rfl | rfl | rfl | rfl <;> simp [inv32]

/-- A step function on `w`-bit words visits all `2^w - 1` non-zero words before it repeats, whatever non-zero word it
starts from. -/
def FullPeriod {w : Nat} (f : BitVec w → BitVec w) : Prop :=
  ∀ x, x ≠ 0#w → f^[2 ^ w - 1] x = x ∧ ∀ m n, m < 2 ^ w - 1 → n < 2 ^ w - 1 → f^[m] x = f^[n] x → m = n

theorem fullPeriod_of {w : Nat} {f : BitVec w → BitVec w} (h : ∀ x, x ≠ 0#w → Function.minimalPeriod f x = 2 ^ w - 1) :
    FullPeriod f := by
  intro x hx
  refine ⟨?_, fun m n hm hn e => ?_⟩
  · have := Function.isPeriodicPt_minimalPeriod f x
    rw [h x hx] at this; exact this
  · have := Function.iterate_injOn_Iio_minimalPeriod (f := f) (x := x)
    rw [h x hx] at this
    exact this hm hn e

/-- **C26 (period).** Whatever its (non-zero) seed, the generator behind `next_u64` goes through all `2^64 - 1` non-zero
states before repeating. -/
theorem step64_full_period : FullPeriod step64 :=
  fullPeriod_of fun x hx => Gf2.full_period step64 step64_xor inv64 (by norm_num) primes64 check64 x hx

/-- **C26 (period, shuffle).** -/
theorem step32_full_period : FullPeriod step32 :=
  fullPeriod_of fun x hx => Gf2.full_period step32 step32_xor inv32 (by norm_num) primes32 check32 x hx

theorem bij_of_period {w : Nat} {f : BitVec w → BitVec w} (hf : ∀ x y, f (x ^^^ y) = f x ^^^ f y) (hp : FullPeriod f)
    (hw : 2 ≤ 2 ^ w - 1) : Function.Bijective f := by
  have f0 : f 0#w = 0#w := by have := hf 0#w 0#w; simpa using this
  have hz : ∀ x, f x = 0#w → x = 0#w := by
    intro x hx
    by_contra hne
    obtain ⟨h1, h2⟩ := hp x hne
    have : ∀ n, f^[n] (0#w) = 0#w := by
      intro n
      induction n with
      | zero => rfl
      | succ n ih => rw [Function.iterate_succ_apply, f0, ih]
    have e : f^[2 ^ w - 1] x = 0#w := by
      obtain ⟨n, hn⟩ : ∃ n, 2 ^ w - 1 = n + 1 := ⟨2 ^ w - 2, by omega⟩
      rw [hn, Function.iterate_succ_apply, hx, this]
    exact hne (h1.symm.trans e)
  have hinj : Function.Injective f := by
    intro x y hxy
    have : f (x ^^^ y) = 0#w := by rw [hf, hxy, BitVec.xor_self]
    have := hz _ this
    have h2 : x = (x ^^^ y) ^^^ y := by rw [BitVec.xor_assoc, BitVec.xor_self, BitVec.xor_zero]
    rw [this] at h2
    simpa using h2
  have : Finite (BitVec w) := Finite.of_injective (fun x : BitVec w => x.toFin) (fun a b h => by
    cases a; cases b; simpa using h)
  exact ⟨hinj, Finite.surjective_of_injective hinj⟩

/-- **C26.** The random state update is a bijection of the 64-bit states, `0` is its only fixed point, and a non-zero state
never degenerates to `0`. -/
theorem step64_bijective : Function.Bijective step64 ∧ (∀ x, step64 x = x ↔ x = 0#64) ∧
    (∀ x, step64 x = 0#64 ↔ x = 0#64) := by
  have hb := bij_of_period step64_xor step64_full_period (by norm_num)
  have f0 : step64 0#64 = 0#64 := by decide
  refine ⟨hb, fun x => ⟨fun h => ?_, fun h => h ▸ f0⟩, fun x => ⟨fun h => hb.1 (h.trans f0.symm), fun h => h ▸ f0⟩⟩
  by_contra hne
  have := (step64_full_period x hne).2 0 1 (by norm_num) (by norm_num) (by simpa using h.symm)
  omega

/-- **C26 (shuffle).** The same for the 32-bit generator. -/
theorem step32_bijective : Function.Bijective step32 ∧ (∀ x, step32 x = x ↔ x = 0#32) ∧
    (∀ x, step32 x = 0#32 ↔ x = 0#32) := by
  have hb := bij_of_period step32_xor step32_full_period (by norm_num)
  have f0 : step32 0#32 = 0#32 := by decide
  refine ⟨hb, fun x => ⟨fun h => ?_, fun h => h ▸ f0⟩, fun x => ⟨fun h => hb.1 (h.trans f0.symm), fun h => h ▸ f0⟩⟩
  by_contra hne
  have := (step32_full_period x hne).2 0 1 (by norm_num) (by norm_num) (by simpa using h.symm)
  omega

end Verif.Rand
