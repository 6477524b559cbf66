import Verif.RangeSpec
import Verif.VecProps
/-!
# Theorems about ranges (C09)
-/
namespace Verif.Range
open Verif.Vec (Op State M Hdr Valid Abs Zero live)
open Verif.Vec.Spec (Val R Ty SState clampTo spliceAt fresh fit)
open Verif.Pack (Cfg)
variable {α : Type}

/-! ### 32-bit arithmetic -/

/-- a small number as a word -/
abbrev I (k : Nat) : BitVec 32 := BitVec.ofNat 32 k

theorem I_toNat {k : Nat} (h : k < 2 ^ 31) : (I k).toNat = k := by
  simp only [BitVec.toNat_ofNat]; exact Nat.mod_eq_of_lt (by omega)

theorem I_toInt {k : Nat} (h : k < 2 ^ 31) : (I k).toInt = k := by
  rw [BitVec.toInt_eq_toNat_of_lt (by rw [I_toNat h]; omega), I_toNat h]

theorem I_add (a b : Nat) : I a + I b = I (a + b) := by simp [I, BitVec.ofNat_add]

theorem I_sub {a b : Nat} (h : b ≤ a) : I a - I b = I (a - b) := by
  have : I a = I (a - b) + I b := by rw [I_add]; congr 1; omega
  rw [this, BitVec.add_sub_cancel]

theorem I_neg {a b : Nat} (h : a ≤ b) : -(I a - I b) = I (b - a) := by
  rw [BitVec.neg_sub, BitVec.add_comm, ← BitVec.sub_eq_add_neg, I_sub h]

theorem I_slt {a b : Nat} (ha : a < 2 ^ 31) (hb : b < 2 ^ 31) : (I a).slt (I b) = decide (a < b) := by
  rw [Bool.eq_iff_iff, BitVec.slt_iff_toInt_lt, I_toInt ha, I_toInt hb]
  simp

theorem toNat_lt (x : BitVec 32) : x.toInt.toNat < 2 ^ 31 := by
  have := BitVec.toInt_lt (x := x); omega

theorem pos_eq (x : BitVec 32) : (if (0#32).slt x then x else 0) = I x.toInt.toNat := by
  have hs : (0#32).slt x = decide (0 < x.toInt) := by
    rw [Bool.eq_iff_iff, BitVec.slt_iff_toInt_lt]; simp
  rw [hs]
  apply BitVec.eq_of_toInt_eq
  rw [I_toInt (toNat_lt x)]
  by_cases h : 0 < x.toInt
  · rw [if_pos (by simpa using h)]; omega
  · rw [if_neg (by simpa using h)]; simp; omega

theorem min_eq' {a b : Nat} (ha : a < 2 ^ 31) (hb : b < 2 ^ 31) : (if (I a).slt (I b) then I a else I b) = I (min a b) := by
  rw [I_slt ha hb]
  split <;> rename_i h <;> simp only [decide_eq_true_eq] at h <;> congr 1 <;> omega

theorem min_eq2 {a b : Nat} (ha : a < 2 ^ 31) (hb : b < 2 ^ 31) : (if (I b).slt (I a) then I b else I a) = I (min a b) := by
  rw [I_slt hb ha]
  split <;> rename_i h <;> simp only [decide_eq_true_eq] at h <;> congr 1 <;> omega

theorem clamp_eq (n : Nat) (x : BitVec 32) : min x.toInt.toNat n = clampTo n x.toInt := by
  unfold clampTo; omega

theorem clampTo_le (n : Nat) (x : Int) : clampTo n x ≤ n := by unfold clampTo; omega

theorem clampTo_nat (n k : Nat) (h : k ≤ n) : clampTo n (k : Int) = k := by unfold clampTo; omega

/-! ### the packed word -/

/-- `g` is the range the specification calls `sg` -/
structure RAbs (g : Rng) (sg : Spec.SRng) : Prop where
  vec : g.vec = sg.vec
  trim : g.trim.toNat = sg.l + sg.r * 2 ^ 32
  l : sg.l < 2 ^ 31
  r : sg.r < 2 ^ 31

theorem RAbs.left {g : Rng} {sg} (h : RAbs g sg) : g.left = I sg.l := by
  apply BitVec.eq_of_toNat_eq
  unfold Rng.left
  have hl := h.l
  rw [I_toNat h.l, BitVec.toNat_setWidth, BitVec.toNat_and, h.trim]
  have : (0xffffffff#64).toNat = 2 ^ 32 - 1 := rfl
  rw [this, Nat.and_two_pow_sub_one_eq_mod]
  omega

theorem RAbs.right {g : Rng} {sg} (h : RAbs g sg) : g.right = I sg.r := by
  apply BitVec.eq_of_toNat_eq
  unfold Rng.right
  have hl := h.l
  have hr := h.r
  rw [I_toNat h.r, BitVec.toNat_setWidth, BitVec.toNat_ushiftRight, h.trim, Nat.shiftRight_eq_div_pow]
  omega

theorem RAbs.size {g : Rng} {sg} (h : RAbs g sg) {n} (hn : sg.l + sg.r ≤ n) : g.size n = I (n - sg.l - sg.r) := by
  unfold Rng.size
  rw [h.left, h.right, I_add, I_sub hn]
  congr 1; omega

theorem RAbs.zero {g : Rng} {sg} (h : RAbs g sg) : g.trim = 0 ↔ sg.l + sg.r = 0 := by
  rw [← BitVec.toNat_inj, h.trim]
  simp only [BitVec.ofNat_eq_ofNat, BitVec.toNat_ofNat, Nat.zero_mod]
  omega

theorem ext_toNat {k : Nat} (h : k < 2 ^ 31) : ((I k).signExtend 64).toNat = k := by
  have hm : (I k).msb = false := by
    rw [BitVec.msb_eq_decide, I_toNat h]; simp; omega
  rw [BitVec.signExtend_eq_setWidth_of_msb_false hm, BitVec.toNat_setWidth, I_toNat h]
  exact Nat.mod_eq_of_lt (by omega)

theorem hi_toNat {k : Nat} (h : k < 2 ^ 31) : ((I k).signExtend 64 <<< 32).toNat = k * 2 ^ 32 := by
  rw [BitVec.toNat_shiftLeft, ext_toNat h, Nat.shiftLeft_eq]
  exact Nat.mod_eq_of_lt (by omega)

theorem or_toNat {a b : Nat} (ha : a < 2 ^ 31) (hb : b < 2 ^ 31) :
    ((I a).signExtend 64 ||| (I b).signExtend 64 <<< 32).toNat = a + b * 2 ^ 32 := by
  rw [BitVec.toNat_or, ext_toNat ha, hi_toNat hb, Nat.or_comm, Nat.mul_comm b,
    ← Nat.two_pow_add_eq_or_of_lt (i := 32) (b := a) (by omega), Nat.add_comm]

/-- narrowing the packed word -/
theorem RAbs.narrow {g : Rng} {sg} (h : RAbs g sg) {a b n : Nat} (hn : n < 2 ^ 31) (hab : sg.l + a + (sg.r + b) ≤ n) :
    RAbs { g with trim := g.trim + ((I a).signExtend 64 ||| (I b).signExtend 64 <<< 32) }
      { sg with l := sg.l + a, r := sg.r + b } := by
  refine ⟨h.vec, ?_, ?_, ?_⟩
  · simp only
    rw [BitVec.toNat_add, or_toNat (by omega) (by omega), h.trim]
    omega
  · simp only; omega
  · simp only; omega

theorem ule_eq {a b : Nat} (ha : a < 2 ^ 31) (hb : b < 2 ^ 31) : (if (I a).ule (I b) then I a else I b) = I (min a b) := by
  have : (I a).ule (I b) = decide (a ≤ b) := by
    rw [Bool.eq_iff_iff, BitVec.ule_iff_le, BitVec.le_def, I_toNat ha, I_toNat hb]; simp
  rw [this]
  split <;> rename_i h <;> simp only [decide_eq_true_eq] at h <;> congr 1 <;> omega

theorem sub_abs {g : Rng} {sg} (h : RAbs g sg) {n : Nat} (hn : n < 2 ^ 31) (hf : sg.l + sg.r ≤ n) (a b : BitVec 32) :
    RAbs (sub n g a b) { sg with
      l := sg.l + clampTo (clampTo (n - sg.l - sg.r) b.toInt) a.toInt,
      r := sg.r + (n - sg.l - sg.r - clampTo (n - sg.l - sg.r) b.toInt) } := by
  unfold sub
  dsimp only
  have h1 := clampTo_le (n - sg.l - sg.r) b.toInt
  have h2 := clampTo_le (clampTo (n - sg.l - sg.r) b.toInt) a.toInt
  rw [h.size hf, pos_eq b, pos_eq a, ule_eq (toNat_lt b) (by omega), clamp_eq, min_eq' (toNat_lt a) (by omega), clamp_eq,
    I_sub (by omega)]
  exact h.narrow hn (by omega)

theorem subFrom_abs {g : Rng} {sg} (h : RAbs g sg) {n : Nat} (hn : n < 2 ^ 31) (hf : sg.l + sg.r ≤ n) (a : BitVec 32) :
    RAbs (subFrom n g a) { sg with
      l := sg.l + clampTo (clampTo (n - sg.l - sg.r) ((n - sg.l - sg.r : Nat) : Int)) a.toInt,
      r := sg.r + (n - sg.l - sg.r - clampTo (n - sg.l - sg.r) ((n - sg.l - sg.r : Nat) : Int)) } := by
  unfold subFrom
  dsimp only
  rw [clampTo_nat _ _ (Nat.le_refl _), Nat.sub_self]
  have h1 := clampTo_le (n - sg.l - sg.r) a.toInt
  rw [h.size hf, pos_eq a, min_eq' (toNat_lt a) (by omega), clamp_eq]
  have := h.narrow (a := clampTo (n - sg.l - sg.r) a.toInt) (b := 0) hn (by omega)
  have e0 : (I 0).signExtend 64 <<< 32 = 0#64 := by decide
  rwa [e0, BitVec.or_zero] at this

theorem subTo_abs {g : Rng} {sg} (h : RAbs g sg) {n : Nat} (hn : n < 2 ^ 31) (hf : sg.l + sg.r ≤ n) (b : BitVec 32) :
    RAbs (subTo n g b) { sg with
      l := sg.l + clampTo (clampTo (n - sg.l - sg.r) b.toInt) 0,
      r := sg.r + (n - sg.l - sg.r - clampTo (n - sg.l - sg.r) b.toInt) } := by
  unfold subTo
  dsimp only
  have h1 := clampTo_le (n - sg.l - sg.r) b.toInt
  rw [h.size hf, pos_eq b, ule_eq (toNat_lt b) (by omega), clamp_eq, I_sub (by omega)]
  have h0 : clampTo (clampTo (n - sg.l - sg.r) b.toInt) 0 = 0 := by
    have := clampTo_nat (clampTo (n - sg.l - sg.r) b.toInt) 0 (Nat.zero_le _); simpa using this
  rw [h0]
  have := h.narrow (a := 0) (b := n - sg.l - sg.r - clampTo (n - sg.l - sg.r) b.toInt) hn (by omega)
  have e0 : (I 0).signExtend 64 = 0#64 := by decide
  rwa [e0, BitVec.zero_or] at this

/-! ### segments -/

theorem parts {l r : Nat} {xs : Val α} (h : l + r ≤ xs.length) : ∃ A B : Val α, xs = A ++ Spec.seg l r xs ++ B ∧
    A.length = l ∧ B.length = r ∧ (Spec.seg l r xs).length = xs.length - l - r ∧ xs.take l = A ∧ xs.drop (xs.length - r) = B := by
  refine ⟨xs.take l, xs.drop (xs.length - r), ?_, by simp; omega, by simp; omega, by simp [Spec.seg], rfl, rfl⟩
  have h1 : (xs.drop l).drop (xs.length - l - r) = xs.drop (xs.length - r) := by rw [List.drop_drop]; congr 1; omega
  unfold Spec.seg
  rw [List.append_assoc, ← h1, List.take_append_drop, List.take_append_drop]

theorem spliceAt_mid (A M B ys : Val α) (k d : Nat) (h : k + d ≤ M.length) :
    spliceAt (A ++ M ++ B) (A.length + k) d ys = A ++ spliceAt M k d ys ++ B := by
  unfold spliceAt
  have h1 : (A ++ M ++ B).take (A.length + k) = A ++ M.take k := by
    rw [List.append_assoc, List.take_append, List.take_of_length_le (by omega), Nat.add_sub_cancel_left,
      List.take_append_of_le_length (by omega)]
  have h2 : (A ++ M ++ B).drop (A.length + k + d) = M.drop (k + d) ++ B := by
    rw [List.append_assoc, Nat.add_assoc, List.drop_append, List.drop_eq_nil_of_le (by omega), List.nil_append,
      Nat.add_sub_cancel_left, List.drop_append_of_le_length (by omega)]
  rw [h1, h2]
  simp [List.append_assoc]

theorem ult_eq (k : BitVec 32) {n : Nat} (hn : n < 2 ^ 31) : k.ult (I n) = decide (0 ≤ k.toInt ∧ k.toInt < n) := by
  rw [Bool.eq_iff_iff, BitVec.ult_iff_lt, BitVec.lt_def, I_toNat hn, decide_eq_true_eq, BitVec.toInt_eq_toNat_cond]
  have := k.isLt
  split <;> omega

/-- the two possible shapes of a checked item access -/
theorem item_eq {g : Rng} {sg} (h : RAbs g sg) {n : Nat} (hn : n < 2 ^ 31) (hf : sg.l + sg.r ≤ n) (k : BitVec 32) (f : Int → Op α) :
    item (g.size n) g.left k f = if 0 ≤ k.toInt ∧ k.toInt < ((n - sg.l - sg.r : Nat) : Int) then .ok [f ((sg.l + k.toInt.toNat : Nat) : Int)]
      else .error .trap := by
  unfold item
  rw [h.size hf, ult_eq k (by omega), h.left]
  by_cases hc : 0 ≤ k.toInt ∧ k.toInt < ((n - sg.l - sg.r : Nat) : Int)
  · rw [if_pos (by simpa using hc), if_pos hc]
    have : k = I k.toInt.toNat := by
      apply BitVec.eq_of_toInt_eq
      rw [I_toInt (toNat_lt k)]; omega
    have e0 : k + I sg.l = I (k.toInt.toNat + sg.l) := by
      rw [← I_add, ← this]
    have e : (k + I sg.l).toInt = ((sg.l + k.toInt.toNat : Nat) : Int) := by
      rw [e0, I_toInt (by omega)]
      omega
    rw [e]
  · rw [if_neg (by simpa using hc), if_neg hc]

theorem sanitize_eq {n : Nat} (hn : n < 2 ^ 31) (idx del : BitVec 32) :
    sanitize (I n) idx del = (I (clampTo n idx.toInt), I (clampTo (n - clampTo n idx.toInt) del.toInt)) := by
  unfold sanitize
  dsimp only
  have h1 := clampTo_le n idx.toInt
  rw [pos_eq idx, pos_eq del, min_eq2 (toNat_lt idx) hn, clamp_eq, I_sub h1, min_eq2 (toNat_lt del) (by omega), clamp_eq]

theorem run_one {ty : Ty} {zero : α} {t t' : SState α} {op} (h : Vec.Spec.step ty zero t op = .next t') :
    Vec.Spec.run ty zero t [op] = .next t' := by simp only [Vec.Spec.run, h]

/-- a splice of the vector inside the segment -/
theorem splice_in {t : SState α} {i : Nat} {A M B ys : Val α} {k d : Nat}
    (hx : t.vars[i]? = some (some (A ++ M ++ B))) (hkd : k + d ≤ M.length)
    (hfit : (A ++ spliceAt M k d ys ++ B).length + 1 < 2 ^ 31) {f : Val α → R (Val α)}
    (hf : f (A ++ M ++ B) = fit (spliceAt (A ++ M ++ B) (A.length + k) d ys)) :
    Vec.Spec.edit t i f = .next { t with vars := t.vars.set i (some (A ++ spliceAt M k d ys ++ B)) } := by
  unfold Vec.Spec.edit
  rw [hx]
  simp only
  rw [hf, spliceAt_mid _ _ _ _ _ _ hkd, Vec.fit_ok hfit]

/-- what `calls` must achieve -/
def Good (ty : Ty) (zero : α) (t : SState α) (c : M (List (Op α))) : R (SState α) → Prop
  | .next t' => ∃ ops, c = .ok ops ∧ Vec.Spec.run ty zero t ops = .next t'
  | .trap => c = .error .trap
  | .illegal => True

theorem calls_good {ty : Ty} {zero : α} {g : Rng} {sg} (h : RAbs g sg) {t : SState α} {xs : Val α}
    (hx : t.vars[sg.vec]? = some (some xs)) (hn : xs.length + 1 < 2 ^ 31) (op : ROp α) {m : Nat}
    (hm : ∀ j, op.src = some j → ∀ ws, t.vars[j]? = some (some ws) → m = ws.length) :
    Good ty zero t (calls xs.length m g op) (Spec.use ty zero t sg op) := by
  unfold Spec.use
  rw [hx]
  simp only
  rcases Nat.lt_or_ge xs.length (sg.l + sg.r) with hf | hf
  · rw [if_neg (by omega)]; trivial
  rw [if_pos hf]
  have hsz := h.size hf
  have hl := h.left
  have hr := h.right
  obtain ⟨A, B, hp, hA, hB, hM, hpa, hpb⟩ := parts hf
  rw [hpa, hpb]
  have hxl : xs.length = A.length + (Spec.seg sg.l sg.r xs).length + B.length := by
    conv => lhs; rw [hp]
    simp [Nat.add_assoc]
  generalize Spec.seg sg.l sg.r xs = M at hp hM hxl ⊢
  have hML : (M.length : Int) = ((xs.length - sg.l - sg.r : Nat) : Int) := by omega
  -- an edit that is one splice inside the segment
  have main : ∀ {t0 : SState α} {ys : Val α} {k d : Nat} {op1 : Op α} {m' : Val α}, k + d ≤ M.length → m' = spliceAt M k d ys →
      t0.vars[sg.vec]? = some (some xs) →
      ((A ++ spliceAt M k d ys ++ B).length + 1 < 2 ^ 31 →
        Vec.Spec.step ty zero t op1 = Vec.Spec.edit t0 sg.vec fun zs => fit (spliceAt zs (sg.l + k) d ys)) →
      Good ty zero t (.ok [op1])
        (if (A ++ m' ++ B).length + 1 < 2 ^ 31 then .next { t0 with vars := t0.vars.set sg.vec (some (A ++ m' ++ B)) } else .illegal) := by
    rintro t0 ys k d op1 m' hkd rfl hx0 hstep
    split
    · rename_i hfit
      refine ⟨_, rfl, run_one ?_⟩
      rw [hstep hfit]
      rw [hp] at hx0
      exact splice_in hx0 hkd hfit (by rw [hA])
    · trivial
  have ins : ∀ {t0 : SState α} {x : α} {k : Nat}, k ≤ M.length →
      (∀ m', m' = spliceAt M k 0 [some x] → Good ty zero t (.ok [.insert sg.vec ((sg.l + k : Nat) : Int) x])
        (if (A ++ m' ++ B).length + 1 < 2 ^ 31 then .next { t with vars := t.vars.set sg.vec (some (A ++ m' ++ B)) } else .illegal)) := by
    intro t0 x k hk m' hm'
    refine main (k := k) (d := 0) (ys := [some x]) (by omega) hm' hx fun _ => ?_
    simp only [Vec.Spec.step, Vec.Spec.edit, hx]
    rw [if_pos (by omega), Int.toNat_natCast]
  have del : ∀ {k d : Nat}, k + d ≤ M.length →
      (∀ m', m' = spliceAt M k d [] → Good ty zero t (.ok [.spliceDel sg.vec ((sg.l + k : Nat) : Int) (d : Int)])
        (if (A ++ m' ++ B).length + 1 < 2 ^ 31 then .next { t with vars := t.vars.set sg.vec (some (A ++ m' ++ B)) } else .illegal)) := by
    intro k d hk m' hm'
    refine main (k := k) (d := d) (ys := []) (by omega) hm' hx fun hfit => ?_
    simp only [Vec.Spec.step, Vec.Spec.edit, hx]
    rw [clampTo_nat _ _ (by omega), clampTo_nat _ _ (by omega)]
    rw [hp, ← hA, spliceAt_mid _ _ _ _ _ _ hk, Vec.fit_ok hfit]
  have emp : ∀ {zf : Bool} {k d c : Nat}, k + d ≤ M.length →
      (∀ m', m' = spliceAt M k d (List.replicate c (fresh ty zero zf)) →
        Good ty zero t (.ok [.spliceEmpty sg.vec zf ((sg.l + k : Nat) : Int) (d : Int) (c : Int)])
        (if (A ++ m' ++ B).length + 1 < 2 ^ 31 then .next { t with vars := t.vars.set sg.vec (some (A ++ m' ++ B)) } else .illegal)) := by
    intro zf k d c hk m' hm'
    refine main (k := k) (d := d) (by omega) hm' hx fun hfit => ?_
    simp only [Vec.Spec.step, Vec.Spec.edit, hx]
    rw [if_pos (by omega), Int.toNat_natCast, clampTo_nat _ _ (by omega), Int.toNat_natCast]
  have mov : ∀ {j : Nat} {ys : Val α} {k d : Nat}, sg.vec ≠ j → t.vars[j]? = some (some ys) → k + d ≤ M.length →
      (∀ m', m' = spliceAt M k d ys →
        Good ty zero t (.ok [.spliceMove sg.vec ((sg.l + k : Nat) : Int) (d : Int) j])
        (if (A ++ m' ++ B).length + 1 < 2 ^ 31 then
          .next { t with vars := (t.vars.set j none).set sg.vec (some (A ++ m' ++ B)) } else .illegal)) := by
    intro j ys k d hne hj hk m' hm'
    have hx' : (t.vars.set j none)[sg.vec]? = some (some xs) := by rw [List.getElem?_set_ne (Ne.symm hne)]; exact hx
    refine main (t0 := { t with vars := t.vars.set j none }) (k := k) (d := d) (by omega) hm' hx' fun hfit => ?_
    simp only [Vec.Spec.step, hj, if_neg hne, Vec.Spec.edit, hx']
    rw [if_pos (by omega), Int.toNat_natCast, clampTo_nat _ _ (by omega)]
  have cpy : ∀ {j a n : Nat} {adj : Bool} {ws : Val α} {k d : Nat}, t.vars[j]? = some (some ws) → a + n ≤ ws.length →
      ¬ (sg.l + k = 0 ∧ d = xs.length ∧ a = 0 ∧ n ≠ xs.length ∧ Vec.Spec.Agree xs ws) → k + d ≤ M.length →
      (∀ m', m' = spliceAt M k d ((ws.drop a).take n) →
        Good ty zero t (.ok [.spliceCopy sg.vec ((sg.l + k : Nat) : Int) (d : Int) j a n adj])
        (if (A ++ m' ++ B).length + 1 < 2 ^ 31 then .next { t with vars := t.vars.set sg.vec (some (A ++ m' ++ B)) } else .illegal)) := by
    intro j a n adj ws k d hj ha hbug hk m' hm'
    refine main (k := k) (d := d) (by omega) hm' hx fun hfit => ?_
    simp only [Vec.Spec.step, Vec.Spec.edit, hx, hj]
    rw [if_pos, Int.toNat_natCast, clampTo_nat _ _ (by omega)]
    exact ⟨by omega, by omega, ha, fun ⟨b1, b2, b3⟩ => hbug ⟨by omega, by omega, b3⟩⟩
  cases op with
  | get k =>
    simp only [calls]
    rw [item_eq h (by omega) hf, h.vec]
    by_cases hk : 0 ≤ k.toInt
    · rw [if_pos hk]
      by_cases hk2 : k.toInt.toNat < M.length
      · rw [if_pos (by omega), List.getElem?_eq_getElem hk2]
        refine ⟨_, rfl, run_one ?_⟩
        simp only [Vec.Spec.step, hx]
        rw [if_pos (by omega), Int.toNat_natCast]
        have : xs[sg.l + k.toInt.toNat]? = some M[k.toInt.toNat] := by
          rw [hp, List.append_assoc, List.getElem?_append_right (by omega), hA, Nat.add_sub_cancel_left,
            List.getElem?_append_left hk2, List.getElem?_eq_getElem hk2]
        rw [this]
      · rw [if_neg (by omega), List.getElem?_eq_none (by omega)]; rfl
    · rw [if_neg hk, if_neg (by omega)]; rfl
  | moveOut =>
    simp only [calls]
    refine ⟨_, rfl, ?_⟩
    rw [hl, hr, I_toInt h.l, I_toInt h.r, h.vec]
    have hlt : sg.vec < t.vars.length := (List.getElem?_eq_some_iff.1 hx).1
    have e1 : clampTo xs.length (sg.l : Int) = sg.l := clampTo_nat _ _ (by omega)
    have e2 : clampTo (xs.length - sg.l) (sg.r : Int) = sg.r := clampTo_nat _ _ (by omega)
    have e3 : (xs.drop sg.l).take (xs.length - sg.l - sg.r) = M := by
      rw [← hM, hp, List.append_assoc, ← hA, List.drop_left, List.take_left]
    simp only [Vec.Spec.run, Vec.Spec.step, Vec.Spec.edit, hx, e1, e2, e3, List.getElem?_set_self hlt, List.set_set]
  | set k x =>
    simp only
    rw [if_neg (show ¬ Spec.bad t xs M.length (ROp.set k x) from id)]
    simp only [calls, Spec.source, Spec.edited]
    rw [item_eq h (by omega) hf, hML]
    by_cases hk : 0 ≤ k.toInt ∧ k.toInt < ((xs.length - sg.l - sg.r : Nat) : Int)
    · rw [if_pos hk, if_pos hk]
      simp only
      rw [if_pos (by simp; omega)]
      refine ⟨_, rfl, run_one ?_⟩
      rw [h.vec]
      simp only [Vec.Spec.step, Vec.Spec.edit, hx]
      rw [if_pos (by omega), Int.toNat_natCast]
      have : xs.set (sg.l + k.toInt.toNat) (some x) = A ++ M.set k.toInt.toNat (some x) ++ B := by
        conv => lhs; rw [hp]
        rw [List.append_assoc, List.set_append_right _ _ (by omega), hA, Nat.add_sub_cancel_left,
          List.set_append_left _ _ (by omega), List.append_assoc]
      rw [this]
    · rw [if_neg hk, if_neg hk]; rfl
  | push x =>
    simp only
    rw [if_neg (show ¬ Spec.bad t xs M.length (ROp.push x) from id)]
    simp only [calls, Spec.source, Spec.edited]
    rw [hr, I_sub (by omega), I_toInt (by omega), h.vec]
    have := ins (t0 := t) (x := x) (k := M.length) (Nat.le_refl _) (M ++ [some x]) (by simp [spliceAt])
    rwa [show sg.l + M.length = xs.length - sg.r by omega] at this
  | insert k x =>
    simp only
    rw [if_neg (show ¬ Spec.bad t xs M.length (ROp.insert k x) from id)]
    simp only [calls, Spec.source, Spec.edited]
    have := clampTo_le M.length k.toInt
    rw [hsz, ← hM, hl, pos_eq, min_eq' (toNat_lt k) (by omega), clamp_eq, I_add, I_toInt (by omega), h.vec]
    exact ins (t0 := t) (by omega) _ rfl
  | unshift x =>
    simp only
    rw [if_neg (show ¬ Spec.bad t xs M.length (ROp.unshift x) from id)]
    simp only [calls, Spec.source, Spec.edited]
    rw [hl, h.vec, show (I sg.l + 0 : BitVec 32) = I sg.l from BitVec.add_zero _, I_toInt h.l]
    exact ins (t0 := t) (x := x) (k := 0) (by omega) _ (by simp [spliceAt])
  | resize zf n =>
    simp only
    rw [if_neg (show ¬ Spec.bad t xs M.length (ROp.resize zf n) from id)]
    simp only [calls, Spec.source, Spec.edited]
    rw [hsz, ← hM, hl, h.vec, pos_eq]
    have hnl := toNat_lt n
    generalize n.toInt.toNat = N at *
    rcases Nat.lt_or_ge M.length N with hc | hc
    · have hs1 : (0#32).slt (I (N - M.length)) = true := by
        rw [BitVec.slt_iff_toInt_lt, I_toInt (k := N - M.length) (by omega)]
        show (0 : Int) < _
        omega
      have hs2 : (I (N - M.length)).slt 0#32 = false := by
        rw [Bool.eq_false_iff]
        intro hs
        rw [BitVec.slt_iff_toInt_lt, I_toInt (by omega)] at hs
        have hs' : ((N - M.length : Nat) : Int) < 0 := hs
        omega
      rw [I_sub (by omega), hs1, hs2, if_pos rfl, if_neg (by simp), show (I sg.l + I M.length - 0 : BitVec 32) = I sg.l + I M.length from BitVec.sub_zero _,
        I_add, I_toInt (by omega), I_toInt (by omega)]
      have := emp (zf := zf) (k := M.length) (d := 0) (c := N - M.length) (by omega) (M.take N ++ List.replicate (N - M.length) (fresh ty zero zf))
        (by rw [List.take_of_length_le (by omega)]; simp [spliceAt])
      exact this
    · have e : I N - I M.length = - I (M.length - N) := by rw [← I_neg hc, BitVec.neg_neg]
      have eb : (- I (M.length - N)).toInt = -((M.length - N : Nat) : Int) := by
        rw [BitVec.toInt_neg, I_toInt (by omega), Int.bmod_eq_of_le (by omega) (by omega)]
      have hs : (0#32).slt (I N - I M.length) = false := by
        rw [Bool.eq_false_iff]
        intro hs
        rw [BitVec.slt_iff_toInt_lt, e, eb] at hs
        have hs' : (0 : Int) < -((M.length - N : Nat) : Int) := hs
        omega
      have hadd : (if (I N - I M.length).slt 0#32 then (0 : BitVec 32) else I N - I M.length) = I 0 := by
        rcases Nat.lt_or_ge N M.length with hlt | hge
        · have : (I N - I M.length).slt 0#32 = true := by
            rw [BitVec.slt_iff_toInt_lt, e, eb]
            show _ < (0 : Int)
            omega
          rw [this, if_pos rfl]; rfl
        · rw [I_sub hge]
          have : N - M.length = 0 := by omega
          rw [this]; rfl
      rw [hadd, hs]
      rw [if_neg (by simp), I_neg hc, I_add, I_sub (by omega), I_toInt (by omega), I_toInt (by omega)]
      have := emp (zf := zf) (k := N) (d := M.length - N) (c := 0) (by omega) (M.take N ++ List.replicate (N - M.length) (fresh ty zero zf))
        (by
          have e1 : N - M.length = 0 := by omega
          have e2 : N + (M.length - N) = M.length := by omega
          simp [spliceAt, e1, e2])
      rw [show sg.l + M.length - (M.length - N) = sg.l + N by omega]
      exact this
  | grow zf n =>
    simp only
    rw [if_neg (show ¬ Spec.bad t xs M.length (ROp.grow zf n) from id)]
    simp only [calls, Spec.source, Spec.edited]
    rw [hsz, ← hM, hl, h.vec]
    have hnl := toNat_lt n
    have e : (if (I M.length).slt n then n else I M.length) = I (max n.toInt.toNat M.length) := by
      rw [show (I M.length).slt n = decide ((M.length : Int) < n.toInt) by
        rw [Bool.eq_iff_iff, BitVec.slt_iff_toInt_lt, I_toInt (by omega)]; simp]
      apply BitVec.eq_of_toInt_eq
      rw [I_toInt (by omega)]
      by_cases hc : (M.length : Int) < n.toInt
      · rw [if_pos (by simpa using hc)]; omega
      · rw [if_neg (by simpa using hc), I_toInt (by omega)]; omega
    rw [e, I_sub (by omega), I_add, I_toInt (by omega), I_toInt (by omega)]
    have := emp (zf := zf) (k := M.length) (d := 0) (c := max n.toInt.toNat M.length - M.length) (by omega)
      (M ++ List.replicate (n.toInt.toNat - M.length) (fresh ty zero zf))
      (by simp [spliceAt]; omega)
    simpa using this
  | shrink n =>
    simp only
    rw [if_neg (show ¬ Spec.bad t xs M.length (ROp.shrink n) from id)]
    simp only [calls, Spec.source, Spec.edited]
    have := clampTo_le M.length n.toInt
    rw [hsz, ← hM, hl, h.vec, pos_eq, min_eq' (toNat_lt n) (by omega), clamp_eq, I_sub (by omega), I_add, I_sub (by omega),
      I_toInt (by omega), I_toInt (by omega)]
    rw [show sg.l + M.length - (M.length - clampTo M.length n.toInt) = sg.l + clampTo M.length n.toInt by omega]
    refine del (by omega) _ ?_
    have e1 : M.take n.toInt.toNat = M.take (clampTo M.length n.toInt) := by
      rw [← clamp_eq]
      rcases Nat.le_total n.toInt.toNat M.length with hc | hc
      · rw [Nat.min_eq_left hc]
      · rw [Nat.min_eq_right hc, List.take_of_length_le hc, List.take_length]
    rw [e1]
    simp [spliceAt]; omega
  | clear =>
    simp only
    rw [if_neg (show ¬ Spec.bad t xs M.length (ROp.clear) from id)]
    simp only [calls, Spec.source, Spec.edited]
    rw [hsz, ← hM, hl, h.vec, show (I M.length - 0 : BitVec 32) = I M.length from BitVec.sub_zero _, I_add, I_sub (by omega), I_toInt (by omega), I_toInt (by omega)]
    rw [show sg.l + M.length - M.length = sg.l + 0 by omega]
    exact del (by omega) _ (by simp [spliceAt])
  | pop =>
    simp only
    rw [if_neg (show ¬ Spec.bad t xs M.length (ROp.pop) from id)]
    simp only [calls, Spec.source, Spec.edited]
    rw [hsz, ← hM, hl, h.vec]
    by_cases h0 : M.length = 0
    · have hM0 := List.length_eq_zero_iff.1 h0
      subst hM0
      rw [if_pos (show I ([] : Val α).length = 0#32 from rfl)]
      have hset : t.vars.set sg.vec (some (A ++ [].dropLast ++ B)) = t.vars := by
        rw [List.dropLast_nil, ← hp]
        have := (List.getElem?_eq_some_iff.1 hx).2
        rw [← this]; exact List.set_getElem_self _
      rw [if_pos (by simp only [List.dropLast_nil, List.length_append, List.length_nil]; simp only [List.length_nil] at hxl; omega)]
      refine ⟨[], rfl, ?_⟩
      rw [hset]; rfl
    · rw [if_neg (by
        intro hc
        have := congrArg BitVec.toNat hc
        rw [I_toNat (by omega)] at this
        simp at this; exact h0 (by simp [this]))]
      rw [I_add, show (1 : BitVec 32) = I 1 from rfl, I_sub (by omega), I_toInt (by omega)]
      have := del (k := M.length - 1) (d := 1) (by omega) M.dropLast (by
        simp [spliceAt, List.dropLast_eq_take]; omega)
      rw [show sg.l + M.length - 1 = sg.l + (M.length - 1) by omega]
      simpa using this
  | spliceDel idx dl =>
    simp only
    rw [if_neg (show ¬ Spec.bad t xs M.length (ROp.spliceDel idx dl) from id)]
    simp only [calls, Spec.source, Spec.edited]
    have h1 := clampTo_le M.length idx.toInt
    have h2 := clampTo_le (M.length - clampTo M.length idx.toInt) dl.toInt
    rw [hsz, ← hM, hl, h.vec, pos_eq, min_eq' (toNat_lt idx) (by omega), clamp_eq, I_sub h1, pos_eq,
      min_eq' (toNat_lt dl) (by omega), clamp_eq, I_add, I_toInt (by omega), I_toInt (by omega)]
    exact del (by omega) _ rfl
  | spliceMove idx dl j =>
    simp only
    rw [if_neg (show ¬ Spec.bad t xs M.length (ROp.spliceMove idx dl j) from id)]
    simp only [calls, Spec.source]
    split
    · trivial
    · rename_i t1 src heq
      split at heq
      · cases heq
      · rename_i hne
        split at heq
        · rename_i ys hj
          cases heq
          simp only [Spec.edited]
          have h1 := clampTo_le M.length idx.toInt
          have h2 := clampTo_le (M.length - clampTo M.length idx.toInt) dl.toInt
          rw [hsz, ← hM, hl, h.vec, sanitize_eq (by omega)]
          simp only
          rw [I_add, I_toInt (by omega), I_toInt (by omega)]
          exact mov hne hj (by omega) _ rfl
        · cases heq
  | spliceCopy idx dl j a n adj =>
    simp only [calls]
    split
    · trivial
    · rename_i hbad
      simp only [Spec.bad] at hbad
      simp only [Spec.source]
      split
      · trivial
      · rename_i t1 src heq
        split at heq
        · rename_i ws hj
          split at heq
          · rename_i ha
            cases heq
            simp only [Spec.edited]
            have h1 := clampTo_le M.length idx.toInt
            have h2 := clampTo_le (M.length - clampTo M.length idx.toInt) dl.toInt
            rw [hsz, ← hM, hl, h.vec, sanitize_eq (by omega)]
            simp only
            rw [I_add, I_toInt (by omega), I_toInt (by omega)]
            refine cpy hj ha (fun ⟨b1, b2, b3, b4, b5⟩ => hbad ?_) (by omega) _ rfl
            have b1' : clampTo M.length idx.toInt = 0 := by omega
            rw [b1', Nat.sub_zero] at b2
            exact ⟨b1', b2, b3, b4, ws, hj, b5⟩
          · cases heq
        · cases heq
  | appendMove dl j =>
    simp only
    rw [if_neg (show ¬ Spec.bad t xs M.length (ROp.appendMove dl j) from id)]
    generalize hC : calls xs.length m g _ = C
    simp only [Spec.source]
    split
    · trivial
    · rename_i t1 src heq
      split at heq
      · cases heq
      · rename_i hne
        split at heq
        · rename_i ys hj
          cases heq
          simp only [Spec.edited]
          subst hC
          simp only [calls]
          by_cases hd : dl.toInt ≤ 0
          · rw [if_pos hd, hsz, ← hM, hl, h.vec, pos_eq, min_eq2 (toNat_lt dl) (by omega),
              show min dl.toInt.toNat M.length = 0 by omega, I_add, I_toInt (by omega), I_toInt (by omega)]
            exact mov hne hj (k := M.length) (d := 0) (by omega) _ (by simp [spliceAt])
          · rw [if_neg hd]; trivial
        · cases heq
  | appendCopy dl j a n adj =>
    simp only
    rw [if_neg (show ¬ Spec.bad t xs M.length (ROp.appendCopy dl j a n adj) from id)]
    generalize hC : calls xs.length m g _ = C
    simp only [Spec.source]
    split
    · trivial
    · rename_i t1 src heq
      split at heq
      · rename_i ws hj
        split at heq
        · rename_i ha
          cases heq
          simp only [Spec.edited]
          subst hC
          simp only [calls]
          by_cases hd : dl.toInt ≤ 0
          · rw [if_pos hd, hsz, ← hM, hl, h.vec, pos_eq, min_eq2 (toNat_lt dl) (by omega),
              show min dl.toInt.toNat M.length = 0 by omega, I_add, I_toInt (by omega), I_toInt (by omega)]
            refine cpy hj ha (fun ⟨b1, b2, b3, b4, b5⟩ => ?_) (k := M.length) (d := 0) (by omega) _ (by simp [spliceAt])
            exact b5.1 (List.length_eq_zero_iff.1 b2.symm)
          · rw [if_neg hd]; trivial
        · cases heq
      · cases heq
  | assignMove j =>
    simp only
    rw [if_neg (show ¬ Spec.bad t xs M.length (ROp.assignMove j) from id)]
    generalize hC : calls xs.length m g _ = C
    simp only [Spec.source]
    split
    · trivial
    · rename_i t1 src heq
      split at heq
      · cases heq
      · rename_i hne
        split at heq
        · rename_i ys hj
          cases heq
          simp only [Spec.edited]
          subst hC
          simp only [calls]
          by_cases htr : g.trim = 0
          · rw [if_neg (by simpa using htr)]
            have hlr := h.zero.1 htr
            have hA0 := List.length_eq_zero_iff.1 (show A.length = 0 by omega)
            have hB0 := List.length_eq_zero_iff.1 (show B.length = 0 by omega)
            rw [hA0, hB0, List.nil_append, List.append_nil, h.vec]
            split
            · refine ⟨_, rfl, ?_⟩
              have hx' : (t.vars.set j (some []))[sg.vec]? = some (some xs) := by
                rw [List.getElem?_set_ne (Ne.symm hne)]; exact hx
              have hjl : j < t.vars.length := (List.getElem?_eq_some_iff.1 hj).1
              have hj' : ((t.vars.set j (some [])).set sg.vec (some src))[j]? = some (some []) := by
                rw [List.getElem?_set_ne hne, List.getElem?_set_self hjl]
              simp only [Vec.Spec.run, Vec.Spec.step, if_neg hne, hj, Vec.Spec.edit, hx', hj']
              rw [List.set_comm _ _ hne, List.set_set, List.set_comm _ _ (Ne.symm hne)]
            · trivial
          · rw [if_pos htr, hsz, ← hM, hl, h.vec, I_toInt h.l, I_toInt (by omega)]
            exact mov hne hj (k := 0) (d := M.length) (by omega) _ (by simp [spliceAt])
        · cases heq
  | assignCopy j adj =>
    simp only
    rw [if_neg (show ¬ Spec.bad t xs M.length (ROp.assignCopy j adj) from id)]
    generalize hC : calls xs.length m g _ = C
    simp only [Spec.source]
    split
    · trivial
    · rename_i t1 src heq
      split at heq
      · cases heq
      · rename_i hne
        split at heq
        · rename_i ws hj
          split at heq
          · rename_i hcp
            cases heq
            simp only [Spec.edited]
            subst hC
            simp only [calls]
            have hmw := hm j rfl src hj
            subst hmw
            by_cases htr : g.trim = 0
            · rw [if_neg (by simpa using htr)]
              have hlr := h.zero.1 htr
              have hne' : sg.vec ≠ j := fun hc => hne ⟨hc, by simp [hlr]⟩
              have hA0 := List.length_eq_zero_iff.1 (show A.length = 0 by omega)
              have hB0 := List.length_eq_zero_iff.1 (show B.length = 0 by omega)
              rw [hA0, hB0, List.nil_append, List.append_nil, h.vec]
              split
              · refine ⟨_, rfl, run_one ?_⟩
                simp only [Vec.Spec.step, if_neg hne', hj, if_pos hcp, Vec.Spec.edit, hx]
              · trivial
            · have hlr := (not_congr h.zero).1 htr
              rw [if_pos htr, hsz, ← hM, hl, h.vec, I_toInt h.l, I_toInt (by omega)]
              refine cpy hj (a := 0) (n := src.length) (by omega) (fun ⟨b1, b2, b3, b4, b5⟩ => ?_) (k := 0) (d := M.length) (by omega) _ (by simp [spliceAt])
              have := b5.1; omega
          · cases heq
        · cases heq

/-! ### programs -/

theorem source_live {ty : Ty} {t : SState α} {i : Nat} {all : Bool} {op : ROp α} {j p} (hj : op.src = some j)
    (h : Spec.source ty t i all op = some p) : ∃ ws, t.vars[j]? = some (some ws) := by
  cases op <;> simp only [ROp.src, reduceCtorEq, Option.some.injEq] at hj <;> subst hj <;> simp only [Spec.source] at h <;>
    split at h <;> first
    | exact ⟨_, by assumption⟩
    | cases h
    | (split at h <;> first | exact ⟨_, by assumption⟩ | cases h)

/-- a use that makes sense has a live source -/
theorem use_src {ty : Ty} {zero : α} {t : SState α} {sg} {op : ROp α} (h : Spec.use ty zero t sg op ≠ .illegal) {j}
    (hj : op.src = some j) : ∃ ws, t.vars[j]? = some (some ws) := by
  cases hs : Spec.source ty t sg.vec (sg.l + sg.r == 0) op with
  | some p => exact source_live hj hs
  | none =>
    refine absurd ?_ h
    unfold Spec.use
    split
    · split
      · cases op <;> simp only [ROp.src, reduceCtorEq] at hj <;> (simp only; split <;> first | rfl | rw [hs])
      · rfl
    · rfl

/-- the two states correspond -/
structure RSAbs (cfg : Cfg) (s : RState α) (t : Spec.RS α) : Prop where
  st : Abs cfg s.st t.st
  zero : Zero (live s.st.vars)
  len : s.rngs.length = t.rngs.length
  rngs : ∀ (k : Nat) g sg, s.rngs[k]? = some g → t.rngs[k]? = some sg → RAbs g sg

/-- what a run must be, given the specification's result -/
def RMatch (cfg : Cfg) (r : M (RState α)) : R (Spec.RS α) → Prop
  | .next t => r = .error .exit ∨ ∃ s, r = .ok s ∧ RSAbs cfg s t
  | .trap => r = .error .exit ∨ r = .error .trap
  | .illegal => True

theorem run_zero {cfg : Cfg} (hv : Valid cfg) (zero : α) {s s' : State α} {t t'} (ha : Abs cfg s t) (hz : Zero (live s.vars))
    (ops : List (Op α)) (ht : Vec.Spec.run (Vec.tyOf cfg) zero t ops = .next t') (e : Vec.run cfg zero s ops = .ok s') :
    Zero (live s'.vars) := by
  induction ops generalizing s t with
  | nil => cases e; exact hz
  | cons op ops ih =>
    obtain ⟨s1, e1, e⟩ := Vec.bind_ok e
    have hs := Vec.step_refines hv zero ha hz op
    simp only [Vec.Spec.run] at ht
    cases hq : Vec.Spec.step (Vec.tyOf cfg) zero t op with
    | next t1 =>
      rw [hq] at hs ht
      rcases hs with he | ⟨s2, he, ha'⟩
      · rw [he] at e1; cases e1
      · rw [he] at e1; cases e1
        exact ih ha' (Vec.step_zero zero ha.inv hz op he) ht e
    | trap => rw [hq] at ht; cases ht
    | illegal => rw [hq] at ht; cases ht

theorem RSAbs.get {cfg : Cfg} {s : RState α} {t : Spec.RS α} (h : RSAbs cfg s t) {k sg} (hk : t.rngs[k]? = some sg) :
    ∃ g, s.rng k = .ok g ∧ RAbs g sg := by
  have hlt : k < s.rngs.length := by rw [h.len]; exact (List.getElem?_eq_some_iff.1 hk).1
  exact ⟨s.rngs[k], by unfold RState.rng; rw [List.getElem?_eq_getElem hlt], h.rngs k _ _ (List.getElem?_eq_getElem hlt) hk⟩

theorem RSAbs.add {cfg : Cfg} {s : RState α} {t : Spec.RS α} (h : RSAbs cfg s t) {g sg} (hg : RAbs g sg) :
    RSAbs cfg { s with rngs := s.rngs ++ [g] } { t with rngs := t.rngs ++ [sg] } := by
  refine ⟨h.st, h.zero, by simp [h.len], fun k g' sg' h1 h2 => ?_⟩
  rcases Nat.lt_trichotomy k s.rngs.length with hk | hk | hk
  · simp only at h1 h2
    rw [List.getElem?_append_left hk] at h1
    rw [List.getElem?_append_left (by rw [← h.len]; exact hk)] at h2
    exact h.rngs k _ _ h1 h2
  · simp only [hk, List.getElem?_concat_length] at h1
    simp only [hk, h.len, List.getElem?_concat_length] at h2
    cases h1; cases h2; exact hg
  · simp only at h1
    rw [List.getElem?_eq_none (by simp; omega)] at h1; cases h1

theorem var_size {cfg : Cfg} {s : State α} {t} (ha : Abs cfg s t) {i xs} (h : t.vars[i]? = some (some xs)) :
    ∃ v, s.var i = .ok v ∧ v.size = xs.length ∧ xs.length + 1 < 2 ^ 31 := by
  obtain ⟨v, _, h2, h3, h4, _, h6⟩ := Vec.abs_var ha h
  exact ⟨v, h2, by rw [← h3, Vec.items_length h4], h6⟩

theorem narrow_refines {cfg : Cfg} {s : RState α} {t : Spec.RS α} (h : RSAbs cfg s t) {k : Nat} (f : Nat → Rng → Rng) (a b : Nat → Int)
    (hf : ∀ (n : Nat) g sg, RAbs g sg → n < 2 ^ 31 → sg.l + sg.r ≤ n → RAbs (f n g) { sg with
      l := sg.l + clampTo (clampTo (n - sg.l - sg.r) (b (n - sg.l - sg.r))) (a (n - sg.l - sg.r)),
      r := sg.r + (n - sg.l - sg.r - clampTo (n - sg.l - sg.r) (b (n - sg.l - sg.r))) }) :
    RMatch cfg (do let r ← s.rng k; let v ← s.st.var r.vec; .ok { s with rngs := s.rngs ++ [f v.size r] })
      (match t.rngs[k]? with | some g => Spec.addRng t (Spec.narrow t.st g a b) | none => .illegal) := by
  cases hk : t.rngs[k]? with
  | none => trivial
  | some sg =>
    obtain ⟨g, e, hg⟩ := h.get hk
    simp only [e, bind, Except.bind, Spec.narrow]
    cases hx : t.st.vars[sg.vec]? with
    | none => trivial
    | some o =>
      cases o with
      | none => trivial
      | some xs =>
        obtain ⟨v, e1, e2, e3⟩ := var_size h.st hx
        rw [hg.vec, e1]
        simp only
        by_cases hfit : sg.l + sg.r ≤ xs.length
        · rw [if_pos hfit, e2]
          exact Or.inr ⟨_, rfl, h.add (hf _ _ _ hg (by omega) hfit)⟩
        · rw [if_neg hfit]; trivial

theorem step_refines {cfg : Cfg} (hv : Valid cfg) (zero : α) {s : RState α} {t : Spec.RS α} (h : RSAbs cfg s t) (st : Stmt α) :
    RMatch cfg (step cfg zero s st) (Spec.step (Vec.tyOf cfg) zero t st) := by
  cases st with
  | vec op =>
    have hs := Vec.step_refines hv zero h.st h.zero op
    simp only [step, Spec.step, bind, Except.bind]
    cases hq : Vec.Spec.step (Vec.tyOf cfg) zero t.st op with
    | next t1 =>
      rw [hq] at hs
      rcases hs with he | ⟨s1, he, ha⟩
      · rw [he]; exact Or.inl rfl
      · rw [he]; exact Or.inr ⟨_, rfl, ha, Vec.step_zero zero h.st.inv h.zero op he, h.len, h.rngs⟩
    | trap =>
      rw [hq] at hs
      rcases hs with he | he
      · rw [he]; exact Or.inl rfl
      · rw [he]; exact Or.inr rfl
    | illegal => trivial
  | whole i => exact Or.inr ⟨_, rfl, h.add ⟨rfl, by simp [whole], Nat.two_pow_pos 31, Nat.two_pow_pos 31⟩⟩
  | subFrom k a => exact narrow_refines h (fun n g => subFrom n g a) _ _ fun n g sg h1 h2 h3 => subFrom_abs h1 h2 h3 a
  | subTo k b => exact narrow_refines h (fun n g => subTo n g b) _ _ fun n g sg h1 h2 h3 => subTo_abs h1 h2 h3 b
  | sub k a b => exact narrow_refines h (fun n g => sub n g a b) _ _ fun n g sg h1 h2 h3 => sub_abs h1 h2 h3 a b
  | use k op =>
    simp only [step, Spec.step]
    cases hk : t.rngs[k]? with
    | none => trivial
    | some sg =>
      obtain ⟨g, e, hg⟩ := h.get hk
      simp only [e, bind, Except.bind]
      by_cases hill : Spec.use (Vec.tyOf cfg) zero t.st sg op = .illegal
      · rw [hill]; trivial
      · have hlive : ∃ xs, t.st.vars[sg.vec]? = some (some xs) := by
          cases hx : t.st.vars[sg.vec]? with
          | none => exact absurd (by unfold Spec.use; rw [hx]) hill
          | some o =>
            cases o with
            | none => exact absurd (by unfold Spec.use; rw [hx]) hill
            | some xs => exact ⟨xs, rfl⟩
        obtain ⟨xs, hx⟩ := hlive
        obtain ⟨v, e1, e2, e3⟩ := var_size h.st hx
        have hsrc : ∃ m, srcSize s.st op.src = .ok m ∧ ∀ j, op.src = some j → ∀ ws, t.st.vars[j]? = some (some ws) → m = ws.length := by
          cases hj : op.src with
          | none => exact ⟨0, rfl, fun j hj => by cases hj⟩
          | some j =>
            obtain ⟨ws, hw⟩ := use_src hill hj
            obtain ⟨w, w1, w2, w3⟩ := var_size h.st hw
            refine ⟨w.size, by simp only [srcSize, w1, bind, Except.bind], fun j' hj' ws' hw' => ?_⟩
            cases hj'
            rw [hw] at hw'; cases hw'; exact w2
        obtain ⟨m, em, hm⟩ := hsrc
        have hgood := calls_good (ty := Vec.tyOf cfg) (zero := zero) hg hx e3 op hm
        rw [hg.vec, e1]
        simp only [em, e2]
        cases hq : Spec.use (Vec.tyOf cfg) zero t.st sg op with
        | illegal => trivial
        | trap =>
          rw [hq] at hgood
          simp only [Good] at hgood
          rw [hgood]; exact Or.inr rfl
        | next t1 =>
          rw [hq] at hgood
          obtain ⟨ops, ec, er⟩ := hgood
          rw [ec]
          simp only
          have hr := Vec.run_refines hv zero h.st h.zero ops
          rw [er] at hr
          rcases hr with he | ⟨s1, he, ha⟩
          · rw [he]; exact Or.inl rfl
          · rw [he]; exact Or.inr ⟨_, rfl, ha, run_zero hv zero h.st h.zero ops er he, h.len, h.rngs⟩

theorem run_refines {cfg : Cfg} (hv : Valid cfg) (zero : α) {s : RState α} {t : Spec.RS α} (h : RSAbs cfg s t) (ss : List (Stmt α)) :
    RMatch cfg (run cfg zero s ss) (Spec.run (Vec.tyOf cfg) zero t ss) := by
  induction ss generalizing s t with
  | nil => exact Or.inr ⟨s, rfl, h⟩
  | cons st ss ih =>
    have hs := step_refines hv zero h st
    simp only [run, Spec.run, bind, Except.bind]
    cases hq : Spec.step (Vec.tyOf cfg) zero t st with
    | next t' =>
      rw [hq] at hs
      rcases hs with he | ⟨s', he, h'⟩
      · rw [he]
        simp only
        cases Spec.run (Vec.tyOf cfg) zero t' ss with
        | next _ => exact Or.inl rfl
        | trap => exact Or.inl rfl
        | illegal => trivial
      · rw [he]; exact ih h'
    | trap =>
      rw [hq] at hs
      rcases hs with he | he
      · rw [he]; exact Or.inl rfl
      · rw [he]; exact Or.inr rfl
    | illegal => trivial

/-! ### The theorems -/

/-- What a program sees through a range: its `size()`, and what `operator[]` gives at every index below it. -/
def seeRange (s : State α) (g : Rng) : M (List (M (Option α))) := do
  let v ← s.var g.vec
  .ok ((List.range (g.size v.size).toNat).map fun k => do
    let ops ← item (α := α) (g.size v.size) g.left (BitVec.ofNat 32 k) (.get g.vec)
    match ops with
    | [.get i k] => do
      let v ← s.var i
      Vec.get s.heap v k
    | _ => .error .ub)

theorem start_abs (cfg : Cfg) : RSAbs cfg (start : RState α) Spec.start :=
  ⟨Vec.abs_start cfg, Vec.zero_start, rfl, fun k g sg h => by simp [start] at h⟩

theorem seeRange_eq {cfg : Cfg} {s : State α} {t : SState α} (ha : Abs cfg s t) {g sg} (hg : RAbs g sg) {xs}
    (hx : t.vars[sg.vec]? = some (some xs)) (hf : sg.l + sg.r ≤ xs.length) :
    seeRange s g = .ok ((Spec.seg sg.l sg.r xs).map .ok) := by
  obtain ⟨v, _, h2, h3, h4, _, h6⟩ := Vec.abs_var ha hx
  have hsz : v.size = xs.length := by rw [← h3, Vec.items_length h4]
  unfold seeRange
  rw [hg.vec, h2]
  simp only [bind, Except.bind]
  rw [hsz, hg.size hf, I_toNat (by omega)]
  congr 1
  have hlen : (Spec.seg sg.l sg.r xs).length = xs.length - sg.l - sg.r := by simp [Spec.seg]
  apply List.ext_getElem
  · simp [hlen]
  · intro k k1 k2
    simp only [List.getElem_map, List.getElem_range]
    have hk : k < xs.length - sg.l - sg.r := by simpa using k1
    rw [← hg.size hf, item_eq hg (by omega) hf, I_toInt (by omega), if_pos (by omega)]
    simp only
    rw [h2]
    simp only
    rw [Vec.get_ok h4, h3, if_pos (by omega)]
    simp only [Int.toNat_natCast]
    rw [List.getElem?_eq_getElem (by omega)]
    simp [Spec.seg]

/-- Range `k` of the program shows the items `m`. -/
def Shows (s : RState α) (k : Nat) (m : Val α) : Prop := ∃ g, s.rngs[k]? = some g ∧ seeRange s.st g = .ok (m.map .ok)

/-- Variable `i` of the program shows the items `xs`. -/
def VarShows (s : RState α) (i : Nat) (xs : Val α) : Prop := ∃ v, s.st.vars[i]? = some (some v) ∧ Vec.see s.st v = xs.map .ok

theorem RSAbs.shows {cfg : Cfg} {s : RState α} {t : Spec.RS α} (h : RSAbs cfg s t) {k : Nat} {sg} {xs : Val α}
    (hk : t.rngs[k]? = some sg) (hx : t.st.vars[sg.vec]? = some (some xs)) (hf : sg.l + sg.r ≤ xs.length) :
    Shows s k (Spec.seg sg.l sg.r xs) := by
  have hlt : k < s.rngs.length := by rw [h.len]; exact (List.getElem?_eq_some_iff.1 hk).1
  have hg := List.getElem?_eq_getElem hlt
  exact ⟨_, hg, seeRange_eq h.st (h.rngs k _ _ hg hk) hx hf⟩

theorem RSAbs.varShows {cfg : Cfg} {s : RState α} {t : Spec.RS α} (h : RSAbs cfg s t) {i : Nat} {xs : Val α}
    (hx : t.st.vars[i]? = some (some xs)) : VarShows s i xs := by
  obtain ⟨v, h1, _, h3, h4, _⟩ := Vec.abs_var h.st hx
  exact ⟨v, h1, by rw [Vec.see_eq h4, h3]⟩

/-- **C09** Ranges are windows into values: whatever program over vectors and ranges (nested to any depth, with any
32-bit bounds), if it makes sense on lists and windows, then the real program dies in the allocator, or reads exactly
the same items, leaves every variable with exactly the items the list program computes, and every range that still fits
its variable shows exactly its window of that variable.  (`_partial`: `append` with a positive delete count is not
covered, see `append_eats_right_neighbour`, and neither are the splices `Spec.bad` excludes.) -/
theorem ranges_are_windows_partial (cfg : Cfg) (hv : Valid cfg) (zero : α) (ss : List (Stmt α)) (t : Spec.RS α)
    (hspec : Spec.run ⟨cfg.copiable, cfg.trivial⟩ zero Spec.start ss = .next t) :
    run cfg zero start ss = .error .exit ∨
    ∃ s, run cfg zero start ss = .ok s ∧ s.st.out = t.st.out ∧
      s.st.vars.map (Option.map (Vec.see s.st)) = t.st.vars.map (Option.map (List.map .ok)) ∧
      ∀ (k : Nat) sg xs, t.rngs[k]? = some sg → t.st.vars[sg.vec]? = some (some xs) → sg.l + sg.r ≤ xs.length →
        Shows s k (Spec.seg sg.l sg.r xs) := by
  have := run_refines hv zero (start_abs (α := α) cfg) ss
  rw [show Vec.tyOf cfg = ⟨cfg.copiable, cfg.trivial⟩ from rfl, hspec] at this
  rcases this with he | ⟨s, he, h⟩
  · exact Or.inl he
  · exact Or.inr ⟨s, he, h.st.out, Vec.abs_see h.st, fun k sg xs h1 h2 h3 => h.shows h1 h2 h3⟩

/-- **C09** An index outside the range is caught by the bounds check - also when it is inside the vector -, and nothing else is. -/
theorem range_bounds_checks_fire (cfg : Cfg) (hv : Valid cfg) (zero : α) (ss : List (Stmt α))
    (hspec : Spec.run ⟨cfg.copiable, cfg.trivial⟩ zero Spec.start ss = .trap) :
    run cfg zero start ss = .error .exit ∨ run cfg zero start ss = .error .trap := by
  have := run_refines hv zero (start_abs (α := α) cfg) ss
  rw [show Vec.tyOf cfg = ⟨cfg.copiable, cfg.trivial⟩ from rfl, hspec] at this
  exact this

theorem spec_run_append (ty : Ty) (zero : α) (t : Spec.RS α) (ss : List (Stmt α)) (st : Stmt α) :
    Spec.run ty zero t (ss ++ [st]) = match Spec.run ty zero t ss with
      | .next t' => Spec.step ty zero t' st
      | .trap => .trap
      | .illegal => .illegal := by
  induction ss generalizing t with
  | nil =>
    simp only [List.nil_append, Spec.run]
    cases Spec.step ty zero t st <;> rfl
  | cons o ss ih =>
    simp only [List.cons_append, Spec.run]
    cases Spec.step ty zero t o with
    | next t' => exact ih t'
    | trap => rfl
    | illegal => rfl

/-- After the program `ss`, range `k` is the window of the variable `i` with `L` before it, `m` in it and `R` after it. -/
def Window (cfg : Cfg) (zero : α) (ss : List (Stmt α)) (k i : Nat) (L m R : Val α) : Prop :=
  ∃ t, Spec.run ⟨cfg.copiable, cfg.trivial⟩ zero Spec.start ss = .next t ∧
    t.rngs[k]? = some ⟨i, L.length, R.length⟩ ∧ t.st.vars[i]? = some (some (L ++ m ++ R))

/-- The program dies in the allocator, or ends in a state satisfying `P`. -/
def Ends (cfg : Cfg) (zero : α) (ss : List (Stmt α)) (P : RState α → Prop) : Prop :=
  run cfg zero start ss = .error .exit ∨ ∃ s, run cfg zero start ss = .ok s ∧ P s

theorem ends_of {cfg : Cfg} (hv : Valid cfg) {zero : α} {ss : List (Stmt α)} {t : Spec.RS α} {P : RState α → Prop}
    (hspec : Spec.run ⟨cfg.copiable, cfg.trivial⟩ zero Spec.start ss = .next t) (hP : ∀ s, RSAbs cfg s t → P s) :
    Ends cfg zero ss P := by
  have := run_refines hv zero (start_abs (α := α) cfg) ss
  rw [show Vec.tyOf cfg = ⟨cfg.copiable, cfg.trivial⟩ from rfl, hspec] at this
  rcases this with he | ⟨s, he, h⟩
  · exact Or.inl he
  · exact Or.inr ⟨s, he, hP s h⟩

theorem seg_mid (L m R : Val α) : Spec.seg L.length R.length (L ++ m ++ R) = m := by
  unfold Spec.seg
  rw [List.append_assoc, List.drop_left]
  rw [show (L ++ (m ++ R)).length - L.length - R.length = m.length by simp, List.take_left]

theorem seg_narrow (L m R : Val α) (a b : Int) :
    Spec.seg (L.length + clampTo (clampTo m.length b) a) (R.length + (m.length - clampTo m.length b)) (L ++ m ++ R) =
      (m.take b.toNat).drop a.toNat := by
  have hb := clampTo_le m.length b
  have ha := clampTo_le (clampTo m.length b) a
  have e1 : m.take b.toNat = m.take (clampTo m.length b) := by
    rw [show clampTo m.length b = min b.toNat m.length by unfold clampTo; omega]
    rcases Nat.le_total b.toNat m.length with hc | hc
    · rw [Nat.min_eq_left hc]
    · rw [Nat.min_eq_right hc, List.take_of_length_le hc, List.take_length]
  rw [e1]
  have e2 : (m.take (clampTo m.length b)).drop a.toNat = (m.take (clampTo m.length b)).drop (clampTo (clampTo m.length b) a) := by
    generalize clampTo m.length b = B at *
    rw [show clampTo B a = min a.toNat B by unfold clampTo; omega]
    rcases Nat.le_total a.toNat B with hc | hc
    · rw [Nat.min_eq_left hc]
    · rw [Nat.min_eq_right hc, List.drop_eq_nil_of_le (by simp; omega), List.drop_eq_nil_of_le (by simp; omega)]
  rw [e2]
  generalize clampTo (clampTo m.length b) a = a' at *
  generalize clampTo m.length b = b' at *
  unfold Spec.seg
  rw [List.append_assoc, ← List.drop_drop, List.drop_left, List.drop_append_of_le_length (by omega), List.take_append_of_le_length (by
    simp; omega)]
  rw [List.drop_take]
  congr 1
  simp; omega

/-- **C09** A range of a range is a slice of the slice, for every window and all 32-bit bounds, negative, reversed and
past the end included: `m[a..b]` is `(take b m).drop a`. -/
theorem range_of_range_is_slice_of_slice (cfg : Cfg) (hv : Valid cfg) (zero : α) (ss : List (Stmt α)) (k i : Nat) (L m R : Val α)
    (hw : Window cfg zero ss k i L m R) (a b : BitVec 32) :
    ∃ new, Ends cfg zero (ss ++ [.sub k a b]) (fun s => Shows s new ((m.take b.toInt.toNat).drop a.toInt.toNat) ∧ Shows s k m) ∧
      Ends cfg zero (ss ++ [.subFrom k a]) (fun s => Shows s new (m.drop a.toInt.toNat) ∧ Shows s k m) ∧
      Ends cfg zero (ss ++ [.subTo k b]) (fun s => Shows s new (m.take b.toInt.toNat) ∧ Shows s k m) := by
  obtain ⟨t, h1, h2, h3⟩ := hw
  have hlen : (L ++ m ++ R).length - L.length - R.length = m.length := by simp
  have hf : L.length + R.length ≤ (L ++ m ++ R).length := by simp only [List.length_append]; omega
  have hk : k < t.rngs.length := (List.getElem?_eq_some_iff.1 h2).1
  have key : ∀ (st : Stmt α) (a b : Int), (Spec.step ⟨cfg.copiable, cfg.trivial⟩ zero t st =
      Spec.addRng t (Spec.narrow t.st ⟨i, L.length, R.length⟩ (fun _ => a) (fun _ => b))) →
      Ends cfg zero (ss ++ [st]) (fun s => Shows s t.rngs.length ((m.take b.toNat).drop a.toNat) ∧ Shows s k m) := by
    intro st a b hst
    simp only [Spec.narrow, h3, if_pos hf, hlen, Spec.addRng] at hst
    refine ends_of hv (t := _) (by rw [spec_run_append, h1]; exact hst) fun s hs => ⟨?_, ?_⟩
    · have hb := clampTo_le m.length b
      have ha := clampTo_le (clampTo m.length b) a
      have := hs.shows (k := t.rngs.length) List.getElem?_concat_length h3 (by
        simp only [List.length_append]; omega)
      rwa [seg_narrow] at this
    · have := hs.shows (k := k) (by simp only; rw [List.getElem?_append_left hk]; exact h2) h3 hf
      rwa [seg_mid] at this
  refine ⟨t.rngs.length, key _ _ _ (by simp only [Spec.step, h2]), ?_, ?_⟩
  · have := key (.subFrom k a) a.toInt m.length (by simp only [Spec.step, h2, Spec.narrow, h3, if_pos hf, hlen])
    simpa using this
  · have := key (.subTo k b) 0 b.toInt (by simp only [Spec.step, h2])
    simpa using this

theorem use_edit {ty : Ty} {zero : α} {t : SState α} {g : Spec.SRng} {op : ROp α} (hget : ∀ k, op ≠ .get k) (hmo : op ≠ .moveOut)
    {xs : Val α} (hx : t.vars[g.vec]? = some (some xs)) (hf : g.l + g.r ≤ xs.length) :
    Spec.use ty zero t g op = if Spec.bad t xs (Spec.seg g.l g.r xs).length op then .illegal else
        match Spec.source ty t g.vec (g.l + g.r == 0) op with
        | none => .illegal
        | some (t, src) =>
          match Spec.edited ty zero (Spec.seg g.l g.r xs) src op with
          | .next m' =>
            let ys := xs.take g.l ++ m' ++ xs.drop (xs.length - g.r)
            if ys.length + 1 < 2 ^ 31 then .next { t with vars := t.vars.set g.vec (some ys) } else .illegal
          | .trap => .trap
          | .illegal => .illegal := by
  unfold Spec.use
  rw [hx]
  simp only [if_pos hf]
  cases op <;> first | exact absurd rfl (hget _) | exact absurd rfl hmo | rfl

/-- **C09** Editing through a range: the variable gets the edited segment in place of the old one, everything to its
left and to its right is as before, and the range shows the edited segment.  What the edit makes of the segment is
`Spec.edited`; `src` is the content of the source, for the edits that have one. -/
theorem edits_stay_in_the_window_partial (cfg : Cfg) (hv : Valid cfg) (zero : α) (ss : List (Stmt α)) (k i : Nat) (L m R : Val α)
    (hw : Window cfg zero ss k i L m R) (op : ROp α) (hget : ∀ k, op ≠ .get k) (hmo : op ≠ .moveOut) (t' : Spec.RS α)
    (hspec : Spec.run ⟨cfg.copiable, cfg.trivial⟩ zero Spec.start (ss ++ [.use k op]) = .next t') :
    ∃ src m', Spec.edited ⟨cfg.copiable, cfg.trivial⟩ zero m src op = .next m' ∧
      (∀ j, op.src = some j → ∃ ws, Ends cfg zero ss (VarShows · j ws) ∧ src.Sublist ws) ∧
      Ends cfg zero (ss ++ [.use k op]) (fun s => VarShows s i (L ++ m' ++ R) ∧ Shows s k m') := by
  obtain ⟨t, h1, h2, h3⟩ := hw
  have hf : L.length + R.length ≤ (L ++ m ++ R).length := by simp only [List.length_append]; omega
  have hspec' := hspec
  rw [spec_run_append, h1] at hspec
  simp only [Spec.step, h2] at hspec
  cases hu : Spec.use ⟨cfg.copiable, cfg.trivial⟩ zero t.st ⟨i, L.length, R.length⟩ op with
  | trap => rw [hu] at hspec; cases hspec
  | illegal => rw [hu] at hspec; cases hspec
  | next t1 =>
    rw [hu] at hspec
    cases hspec
    have eL : (L ++ m ++ R).take L.length = L := by rw [List.append_assoc, List.take_left]
    have eR : (L ++ m ++ R).drop ((L ++ m ++ R).length - R.length) = R := by
      rw [show (L ++ m ++ R).length - R.length = (L ++ m).length by simp only [List.length_append]; omega, List.drop_left]
    rw [use_edit hget hmo h3 hf] at hu
    simp only [seg_mid, eL, eR] at hu
    · split at hu
      · cases hu
      · split at hu
        · cases hu
        · rename_i t0 src hsrc
          split at hu
          · rename_i m' hm'
            split at hu
            · rename_i hfit
              cases hu
              have hi : i < t0.vars.length := by
                have hi := (List.getElem?_eq_some_iff.1 h3).1
                cases op <;> simp only [Spec.source] at hsrc <;> (try split at hsrc) <;> (try split at hsrc) <;> (try split at hsrc) <;>
                  cases hsrc <;> first | exact hi | (simp only [List.length_set]; exact hi)
              refine ⟨src, m', hm', ?_, ?_⟩
              · intro j hj
                obtain ⟨ws, hws⟩ := source_live hj hsrc
                refine ⟨ws, ends_of hv h1 fun s hs => hs.varShows hws, ?_⟩
                cases op <;> simp only [ROp.src, reduceCtorEq, Option.some.injEq] at hj <;> subst hj <;>
                  simp only [Spec.source, hws] at hsrc <;> (try split at hsrc) <;> (try split at hsrc) <;> cases hsrc <;>
                  first | exact List.Sublist.refl _ | exact (List.take_sublist _ _).trans (List.drop_sublist _ _)
              · refine ends_of hv hspec' fun s hs => ?_
                have hx : (t0.vars.set i (some (L ++ m' ++ R)))[i]? = some (some (L ++ m' ++ R)) := List.getElem?_set_self hi
                refine ⟨hs.varShows hx, ?_⟩
                have := hs.shows (k := k) h2 hx (by simp)
                rwa [seg_mid] at this
            · cases hu
          · cases hu
          · cases hu

/-! ### Where the property fails -/

/-- variables `[1, 2, 3, 4, 5, 6]` and `[9]`, and the range of the items `3, 4` -/
def demo : List (Stmt Nat) := [.vec (.lit [1, 2, 3, 4, 5, 6]), .vec (.lit [9]), .whole 0, .sub 0 2 4]

/-- the items of the variables, and what each range shows -/
def shown (r : M (RState Nat)) : M (List (Option (List (M (Option Nat)))) × List (M (List (M (Option Nat))))) :=
  r.map fun s => (s.st.vars.map (Option.map (Vec.see s.st)), s.rngs.map (seeRange s.st))

/-- **C09** fails for `append(del, source)` with `del > 0`: replacing the last item of the range `3, 4` by `9` deletes
`5`, to the right of the range, and none of the range's own items; the range ends up showing `3, 4`, not `3, 9`. -/
theorem append_eats_right_neighbour :
    shown (run Vec.i32Cfg 0 start (demo ++ [.use 1 (.appendMove 1 1)])) = .ok
      ([some ([1, 2, 3, 4, 9, 6].map fun x => .ok (some x)), none],
       [.ok ([1, 2, 3, 4, 9, 6].map fun x => .ok (some x)), .ok ([3, 4].map fun x => .ok (some x))]) := rfl

/-- **C09** … and `append(del)` through the range of a whole vector, which has no right neighbour, deletes nothing. -/
theorem append_deletes_nothing :
    shown (run Vec.i32Cfg 0 start [.vec (.lit [1, 2, 3]), .vec (.lit [9]), .whole 0, .use 0 (.appendCopy 2 1 0 1 false)]) = .ok
      ([some ([1, 2, 3, 9].map fun x => .ok (some x)), some [.ok (some 9)]], [.ok ([1, 2, 3, 9].map fun x => .ok (some x))]) := rfl

/-! ### The hypotheses are met -/

theorem demo_spec : Spec.run ⟨true, true⟩ 0 Spec.start demo =
    .next { st := { vars := [some [some 1, some 2, some 3, some 4, some 5, some 6], some [some 9]], out := [] },
            rngs := [⟨0, 0, 0⟩, ⟨0, 2, 2⟩] } := by
  simp [demo, Spec.run, Spec.step, Spec.start, Vec.Spec.step, Vec.Spec.start, Spec.narrow, Spec.addRng, clampTo]
  omega

/-- the range of `demo` is a window with two items on either side -/
theorem demo_window : Window Vec.i32Cfg (0 : Nat) demo 1 0 [some 1, some 2] [some 3, some 4] [some 5, some 6] :=
  ⟨_, demo_spec, rfl, rfl⟩

theorem i32_valid : Valid Vec.i32Cfg := ⟨by decide, by decide⟩

/-- pushing through it -/
example : Ends Vec.i32Cfg (0 : Nat) (demo ++ [.use 1 (.push 7)]) (fun s =>
    VarShows s 0 [some 1, some 2, some 3, some 4, some 7, some 5, some 6] ∧ Shows s 1 [some 3, some 4, some 7]) := by
  have hs : Spec.run ⟨true, true⟩ 0 Spec.start (demo ++ [.use 1 (.push 7)]) =
      .next { st := { vars := [some [some 1, some 2, some 3, some 4, some 7, some 5, some 6], some [some 9]], out := [] },
              rngs := [⟨0, 0, 0⟩, ⟨0, 2, 2⟩] } := by
    rw [spec_run_append, demo_spec]
    simp [Spec.step, Spec.use, Spec.seg, Spec.bad, Spec.source, Spec.edited]
  obtain ⟨src, m', h1, _, h2⟩ := edits_stay_in_the_window_partial Vec.i32Cfg i32_valid 0 demo 1 0 _ _ _ demo_window (.push 7)
    (by simp) (by simp) _ hs
  simp [Spec.edited] at h1
  subst h1
  exact h2

/-- a range of it, with a reversed and an overlong bound -/
example : ∃ new, Ends Vec.i32Cfg (0 : Nat) (demo ++ [.sub 1 1 1000]) (fun s => Shows s new [some 4] ∧ Shows s 1 [some 3, some 4]) := by
  obtain ⟨new, h, _⟩ := range_of_range_is_slice_of_slice Vec.i32Cfg i32_valid 0 demo 1 0 _ _ _ demo_window 1 1000
  exact ⟨new, h⟩

/-- an item of the vector outside the range traps -/
example : Spec.run ⟨true, true⟩ 0 Spec.start (demo ++ [.use 1 (.get 2)]) = .trap := by
  rw [spec_run_append, demo_spec]
  simp [Spec.step, Spec.use, Spec.seg]

end Verif.Range
