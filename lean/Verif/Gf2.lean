import Mathlib.Dynamics.PeriodicPts.Defs
import Mathlib.Data.Nat.Prime.Basic
import Mathlib.Tactic.Ring
/-!
# Linear maps over GF(2) on machine words, computed in the kernel

Support for the period proof of the random generators.
-/
namespace Verif.Gf2

/-- Apply the map whose images of the unit vectors are `M` to the vector whose coordinates are the bits of `v`. -/
def app (M : List Nat) : Nat → Nat :=
  List.rec (motive := fun _ => Nat → Nat) (fun _ => 0)
    (fun r _ ih v => Nat.rec (motive := fun _ => Nat → Nat) (fun y => y) (fun _ _ y => Nat.xor r y) (Nat.mod v 2)
      (ih (Nat.div v 2))) M

/-- Composition `A ∘ B`. -/
def mul (A B : List Nat) : List Nat := B.map (app A)

def one (w : Nat) : List Nat := (List.range w).map (2 ^ ·)

/-- `A + I`. -/
def addOne (w : Nat) (A : List Nat) : List Nat := List.zipWith Nat.xor A (one w)

/-- `A^(2^k)` for `k = 0, 1, …, n-1`. -/
def squares (A : List Nat) : Nat → List (List Nat)
  | 0 => []
  | n + 1 => A :: squares (mul A A) n

/-- The power given by the bits of `e`, from the squares. -/
def select (w : Nat) : List (List Nat) → Nat → List Nat
  | [], _ => one w
  | S :: Ss, e => bif Nat.beq (e % 2) 1 then mul S (select w Ss (e / 2)) else select w Ss (e / 2)

def beqL : List Nat → List Nat → Bool
  | [], [] => true
  | a :: as, b :: bs => Nat.beq a b && beqL as bs
  | _, _ => false

theorem beqL_eq {a b : List Nat} (h : beqL a b = true) : a = b := by
  induction a generalizing b with
  | nil => cases b with
    | nil => rfl
    | cons => simp [beqL] at h
  | cons x a ih => cases b with
    | nil => simp [beqL] at h
    | cons y b =>
      simp only [beqL, Bool.and_eq_true] at h
      rw [Nat.eq_of_beq_eq_true h.1, ih h.2]

/-- The whole certificate: the `2^w - 1`st power of `A` is the identity, and for every listed prime `p` the given matrix is a
left inverse of `A^((2^w-1)/p) + I`. -/
def check (w : Nat) (A : List Nat) (certs : List (Nat × List Nat)) : Bool :=
  let Ss := squares A w
  beqL (select w Ss (2 ^ w - 1)) (one w) &&
  certs.all fun (p, inv) => beqL (mul inv (addOne w (select w Ss ((2 ^ w - 1) / p)))) (one w)

/-! ## Correctness -/

@[simp] theorem app_nil (v : Nat) : app [] v = 0 := rfl

theorem app_cons (r : Nat) (rs : List Nat) (v : Nat) :
    app (r :: rs) v = (if v % 2 = 1 then r else 0) ^^^ app rs (v / 2) := by
  have h : app (r :: rs) v = Nat.rec (motive := fun _ => Nat → Nat) (fun y => y) (fun _ _ y => Nat.xor r y) (v % 2)
      (app rs (v / 2)) := rfl
  rw [h]
  rcases Nat.mod_two_eq_zero_or_one v with e | e
  · rw [e]; simp
  · rw [e]; rfl

theorem xor_mod_two (u v : Nat) : (u ^^^ v) % 2 = (u % 2 + v % 2) % 2 := by
  have := Nat.testBit_xor u v 0
  simp only [Nat.testBit_zero] at this
  rcases Nat.mod_two_eq_zero_or_one u with e | e <;> rcases Nat.mod_two_eq_zero_or_one v with e' | e' <;>
    rcases Nat.mod_two_eq_zero_or_one (u ^^^ v) with e'' | e'' <;> rw [e, e', e''] at this <;> simp_all

theorem xor_div_two (u v : Nat) : (u ^^^ v) / 2 = (u / 2) ^^^ (v / 2) := by
  apply Nat.eq_of_testBit_eq
  intro i
  simp only [Nat.testBit_div_two, Nat.testBit_xor]

theorem app_xor (M : List Nat) (u v : Nat) : app M (u ^^^ v) = app M u ^^^ app M v := by
  induction M generalizing u v with
  | nil => simp
  | cons r rs ih =>
    rw [app_cons, app_cons, app_cons, xor_div_two, ih, xor_mod_two]
    apply Nat.eq_of_testBit_eq
    intro i
    rcases Nat.mod_two_eq_zero_or_one u with e | e <;> rcases Nat.mod_two_eq_zero_or_one v with e' | e' <;>
      simp only [e, e', Nat.testBit_xor] <;> simp <;>
      cases r.testBit i <;> cases (app rs (u / 2)).testBit i <;> cases (app rs (v / 2)).testBit i <;> rfl

@[simp] theorem app_zero (M : List Nat) : app M 0 = 0 := by
  induction M with
  | nil => rfl
  | cons r rs ih => rw [app_cons]; simp [ih]

theorem app_mul (A B : List Nat) (v : Nat) : app (mul A B) v = app A (app B v) := by
  induction B generalizing v with
  | nil => simp [mul]
  | cons r rs ih =>
    have e : mul A (r :: rs) = app A r :: mul A rs := rfl
    rw [e, app_cons, app_cons, app_xor, ih]
    split <;> simp

theorem app_one_aux (w k v : Nat) : app ((List.range w).map (fun i => 2 ^ (i + k))) v = 2 ^ k * (v % 2 ^ w) := by
  induction w generalizing k v with
  | zero => simp [Nat.mod_one]
  | succ w ih =>
    rw [List.range_succ_eq_map, List.map_cons, app_cons, List.map_map]
    have e : ((fun i => 2 ^ (i + k)) ∘ Nat.succ) = fun i => 2 ^ (i + (k + 1)) := by
      funext i; simp only [Function.comp, Nat.succ_eq_add_one]; congr 1; omega
    rw [e, ih]
    have hv : v % 2 ^ (w + 1) = v % 2 + 2 * (v / 2 % 2 ^ w) := by
      rw [Nat.pow_succ', Nat.mod_mul]
    rw [hv, Nat.pow_succ, Nat.mul_add, Nat.mul_assoc]
    have hx : 2 ^ k * (2 * (v / 2 % 2 ^ w)) = 2 ^ (k + 1) * (v / 2 % 2 ^ w) := by
      rw [Nat.pow_succ, Nat.mul_assoc]
    rw [hx]
    rcases Nat.mod_two_eq_zero_or_one v with h | h
    · rw [h]; simp
    · rw [h]
      simp only [Nat.zero_add, if_true, Nat.mul_one]
      rw [Nat.xor_comm]
      apply Nat.eq_of_testBit_eq
      intro i
      rw [Nat.testBit_xor, Nat.testBit_two_pow, Nat.add_comm (2 ^ k)]
      rw [Nat.testBit_two_pow_mul_add _ (Nat.pow_lt_pow_right (by decide) (Nat.lt_succ_self k)), Nat.testBit_two_pow_mul]
      by_cases hi : i < k + 1
      · have h1 : ¬ (k + 1 ≤ i) := by omega
        simp [hi, h1, Nat.testBit_two_pow]
      · have h1 : k + 1 ≤ i := by omega
        have h2 : ¬ k = i := by omega
        simp [hi, h1, h2]

theorem app_one (w v : Nat) : app (one w) v = v % 2 ^ w := by
  have := app_one_aux w 0 v
  simpa [one] using this

theorem app_zipWith (A B : List Nat) (v : Nat) (h : A.length = B.length) :
    app (List.zipWith Nat.xor A B) v = app A v ^^^ app B v := by
  induction A generalizing B v with
  | nil => cases B with
    | nil => simp
    | cons => simp at h
  | cons a A ih => cases B with
    | nil => simp at h
    | cons b B =>
      rw [List.zipWith_cons_cons, app_cons, app_cons, app_cons, ih B _ (by simpa using h)]
      apply Nat.eq_of_testBit_eq
      intro i
      split <;> simp only [Nat.testBit_xor] <;> simp [Nat.testBit_xor, show Nat.xor a b = a ^^^ b from rfl] <;>
        cases a.testBit i <;> cases b.testBit i <;> cases (app A (v / 2)).testBit i <;> cases (app B (v / 2)).testBit i <;> rfl

/-- A xor-linear step on words is the matrix of its unit-vector images. -/
def matrix {w : Nat} (f : BitVec w → BitVec w) : List Nat := (List.range w).map fun i => (f (BitVec.twoPow w i)).toNat

theorem clear_step {w : Nat} (x : BitVec w) (i : Nat) (hi : i < w) :
    (x >>> i) <<< i = (if (x.toNat / 2 ^ i) % 2 = 1 then BitVec.twoPow w i else 0#w) ^^^ ((x >>> (i+1)) <<< (i+1)) := by
  apply BitVec.eq_of_getLsbD_eq
  intro j hj
  have hbit : x.getLsbD i = decide ((x.toNat / 2 ^ i) % 2 = 1) := by
    rw [BitVec.getLsbD, Nat.testBit_eq_decide_div_mod_eq]
  rw [BitVec.getLsbD_xor, BitVec.getLsbD_shiftLeft, BitVec.getLsbD_shiftLeft, BitVec.getLsbD_ushiftRight,
    BitVec.getLsbD_ushiftRight]
  rcases Nat.lt_trichotomy j i with h | h | h
  · have h1 : j < i + 1 := by omega
    have h2 : ¬ i = j := by omega
    split <;> simp [h, h1, h2, BitVec.getLsbD_twoPow]
  · subst h
    simp only [hj, Nat.lt_irrefl, Nat.lt_succ_self, Nat.sub_self, Nat.add_zero]
    rw [hbit]
    split <;> rename_i h <;> simp [h, BitVec.getLsbD_twoPow, hj]
  · have h1 : ¬ j < i + 1 := by omega
    have h2 : ¬ j < i := by omega
    have h3 : ¬ i = j := by omega
    have e1 : i + (j - i) = j := by omega
    have e2 : i + 1 + (j - (i + 1)) = j := by omega
    split <;> simp [h1, h2, h3, BitVec.getLsbD_twoPow, e1, e2]

theorem app_matrix {w : Nat} (f : BitVec w → BitVec w) (hf : ∀ x y, f (x ^^^ y) = f x ^^^ f y) (x : BitVec w) :
    app (matrix f) x.toNat = (f x).toNat := by
  have f0 : f 0#w = 0#w := by
    have := hf 0#w 0#w
    simpa using this
  have key : ∀ n i, i + n = w → app ((List.range' i n).map fun i => (f (BitVec.twoPow w i)).toNat) (x.toNat / 2 ^ i) =
      (f ((x >>> i) <<< i)).toNat := by
    intro n
    induction n with
    | zero =>
      intro i hi
      have : (x >>> i) <<< i = 0#w := by
        apply BitVec.eq_of_getLsbD_eq
        intro j hj
        rw [BitVec.getLsbD_shiftLeft]
        have : j < i := by omega
        simp [this]
      rw [this, f0]; rfl
    | succ n ih =>
      intro i hi
      rw [List.range'_succ, List.map_cons, app_cons, clear_step x i (by omega), hf, BitVec.toNat_xor]
      have e : x.toNat / 2 ^ i / 2 = x.toNat / 2 ^ (i + 1) := by rw [Nat.div_div_eq_div_mul, Nat.pow_succ]
      rw [e, ih (i + 1) (by omega)]
      congr 1
      split
      · rfl
      · rw [f0]; rfl
  have := key w 0 (by omega)
  unfold matrix
  rw [List.range_eq_range']
  simpa using this

theorem squares_select {w : Nat} (f : BitVec w → BitVec w) (n : Nat) (A : List Nat) (m e : Nat) (he : e < 2 ^ n)
    (hA : ∀ x : BitVec w, app A x.toNat = (f^[m] x).toNat) (x : BitVec w) :
    app (select w (squares A n) e) x.toNat = (f^[m * e] x).toNat := by
  induction n generalizing A m e x with
  | zero =>
    have : e = 0 := by simpa using he
    subst this
    simp only [squares, select, app_one, Nat.mul_zero, Function.iterate_zero, id_eq]
    exact Nat.mod_eq_of_lt x.isLt
  | succ n ih =>
    have hAA : ∀ x : BitVec w, app (mul A A) x.toNat = (f^[m + m] x).toNat := by
      intro x
      rw [app_mul, hA, hA, Function.iterate_add_apply]
    have h2 : e / 2 < 2 ^ n := by rw [Nat.pow_succ] at he; omega
    have hi := ih (mul A A) (m + m) (e / 2) h2 hAA x
    simp only [squares, select]
    rcases Nat.mod_two_eq_zero_or_one e with h | h
    · rw [h]
      show app (select w (squares (mul A A) n) (e / 2)) x.toNat = _
      rw [hi]
      congr 2
      have : m * e = m * (2 * (e / 2)) := by congr 1; omega
      rw [this]; ring
    · rw [h]
      show app (mul A (select w (squares (mul A A) n) (e / 2))) x.toNat = _
      rw [app_mul, hi, hA, ← Function.iterate_add_apply]
      congr 2
      have : m * e = m * (2 * (e / 2) + 1) := by congr 1; omega
      rw [this]; ring

/-- If the certificate checks, every non-zero state has the full period `2^w - 1`. -/
theorem full_period {w : Nat} (f : BitVec w → BitVec w) (hf : ∀ x y, f (x ^^^ y) = f x ^^^ f y)
    (certs : List (Nat × List Nat)) (hw : 1 < w)
    (hprimes : ∀ p, p.Prime → p ∣ 2 ^ w - 1 → p ∈ certs.map Prod.fst)
    (hc : check w (matrix f) certs = true) (x : BitVec w) (hx : x ≠ 0#w) :
    Function.minimalPeriod f x = 2 ^ w - 1 := by
  have hN : 0 < 2 ^ w - 1 := by
    have : 2 ^ 1 < 2 ^ w := Nat.pow_lt_pow_right (by decide) hw
    omega
  unfold check at hc
  simp only [Bool.and_eq_true, List.all_eq_true] at hc
  obtain ⟨h1, h2⟩ := hc
  have hA : ∀ x : BitVec w, app (matrix f) x.toNat = (f^[1] x).toNat := fun x => app_matrix f hf x
  have hsel : ∀ e, e < 2 ^ w → ∀ x : BitVec w, app (select w (squares (matrix f) w) e) x.toNat = (f^[e] x).toNat := by
    intro e he x
    have := squares_select f w (matrix f) 1 e he hA x
    rwa [Nat.one_mul] at this
  have hlen : ∀ e, (select w (squares (matrix f) w) e).length = w := by
    have : ∀ n A e, (select w (squares A n) e).length = w := by
      intro n
      induction n with
      | zero => intro A e; simp [squares, select, one]
      | succ n ih =>
        intro A e
        simp only [squares, select]
        cases Nat.beq (e % 2) 1
        · exact ih _ _
        · show (mul _ _).length = w
          rw [mul, List.length_map]; exact ih _ _
    intro e; exact this _ _ _
  have hper : f^[2 ^ w - 1] x = x := by
    have := hsel (2 ^ w - 1) (by omega) x
    rw [beqL_eq h1, app_one, Nat.mod_eq_of_lt x.isLt] at this
    exact (BitVec.eq_of_toNat_eq this).symm
  have hdvd : Function.minimalPeriod f x ∣ 2 ^ w - 1 := Function.IsPeriodicPt.minimalPeriod_dvd hper
  obtain ⟨k, hk⟩ := hdvd
  by_cases hk1 : k = 1
  · rw [hk, hk1, Nat.mul_one]
  · exfalso
    obtain ⟨p, hp, hpk⟩ := Nat.exists_prime_and_dvd hk1
    have hpN : p ∣ 2 ^ w - 1 := hk ▸ Dvd.dvd.mul_left hpk _
    obtain ⟨⟨p', inv⟩, hmem, rfl⟩ := List.mem_map.1 (hprimes p hp hpN)
    have hcert := beqL_eq (h2 _ hmem)
    simp only at hcert hp hpk hpN
    have hfix : f^[(2 ^ w - 1) / p'] x = x := by
      apply Function.isPeriodicPt_iff_minimalPeriod_dvd.2
      obtain ⟨j, hj⟩ := hpk
      rw [hk, hj]
      refine ⟨j, ?_⟩
      rw [show Function.minimalPeriod f x * (p' * j) = p' * (Function.minimalPeriod f x * j) by ring]
      exact Nat.mul_div_cancel_left _ hp.pos
    have hlt : (2 ^ w - 1) / p' < 2 ^ w := Nat.lt_of_le_of_lt (Nat.div_le_self _ _) (by omega)
    have := congrArg (fun M => app M x.toNat) hcert
    simp only [app_mul, addOne, app_one] at this
    rw [app_zipWith _ _ _ (by rw [hlen]; simp [one]), hsel _ hlt, hfix, app_one, Nat.mod_eq_of_lt x.isLt, Nat.xor_self, app_zero] at this
    exact hx (BitVec.eq_of_toNat_eq (by simpa using this.symm))

end Verif.Gf2
