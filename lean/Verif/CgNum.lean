import Verif.CgTyped

/-!
# C92: C++ arithmetic, converted back, is the arithmetic of the language
-/

namespace Verif.CgMean

open Verif.CgText Verif.CgExpr Verif.CppGram Verif.CgTree

variable {W : World}

theorem ofInt_toNat (n : Nat) (a : BitVec n) : BitVec.ofInt n (a.toNat : Int) = a := by
  apply BitVec.eq_of_toNat_eq
  rw [BitVec.toNat_ofInt]
  have := a.isLt
  have e : ((a.toNat : Int) % ((2 ^ n : Nat) : Int)) = ((a.toNat % 2 ^ n : Nat) : Int) := by
    rw [Int.natCast_emod]
  rw [e, Int.toNat_natCast, Nat.mod_eq_of_lt this]

theorem ofInt_add8 (a b : BitVec 8) : BitVec.ofInt 8 ((a.toNat : Int) + (b.toNat : Int)) = a + b := by
  rw [BitVec.ofInt_add, ofInt_toNat, ofInt_toNat]

theorem ofInt_neg8 (a : BitVec 8) : BitVec.ofInt 8 (-(a.toNat : Int)) = -a := by
  rw [BitVec.ofInt_neg, ofInt_toNat]

theorem ofInt_sub8 (a b : BitVec 8) : BitVec.ofInt 8 ((a.toNat : Int) - (b.toNat : Int)) = a - b := by
  rw [Int.sub_eq_add_neg, BitVec.ofInt_add, ofInt_toNat, ofInt_neg8, BitVec.sub_eq_add_neg]

theorem ofInt_mul8 (a b : BitVec 8) : BitVec.ofInt 8 ((a.toNat : Int) * (b.toNat : Int)) = a * b := by
  rw [BitVec.ofInt_mul, ofInt_toNat, ofInt_toNat]

theorem ofInt_not8 (a : BitVec 8) : BitVec.ofInt 8 (-(a.toNat : Int) - 1) = ~~~a := by
  rw [Int.sub_eq_add_neg, BitVec.ofInt_add, ofInt_neg8]
  have := BitVec.neg_eq_not_add a
  rw [this]
  have e : (BitVec.ofInt 8 (-1)) = -(1#8) := rfl
  rw [e, ← BitVec.sub_eq_add_neg, BitVec.add_sub_cancel]

theorem toNat_mul_bound (a b : BitVec 8) : (0 : Int) ≤ (a.toNat : Int) * (b.toNat : Int) ∧
    (a.toNat : Int) * (b.toNat : Int) ≤ 65025 := by
  have ha := a.isLt
  have hb := b.isLt
  constructor
  · exact Int.mul_nonneg (by omega) (by omega)
  · have : a.toNat * b.toNat ≤ 255 * 255 := Nat.mul_le_mul (by omega) (by omega)
    have h2 : ((a.toNat * b.toNat : Nat) : Int) ≤ 65025 := by omega
    simpa using h2

theorem result_int {n : Int} (h1 : -2147483648 ≤ n) (h2 : n ≤ 2147483647) : result (.i n) = some (.int n) :=
  if_pos ⟨h1, h2⟩

/-- a value converted to its own type -/
theorem conv_self {t : Ty} {v : Val} (h : v.ty = t) : conv W t (.v v) = some v := by
  subst h
  cases v with
  | bool b => rfl
  | u8 n => simp [conv, promote, Val.ty]
  | u32 n => rfl
  | obj b n => simp [conv, Val.ty]

/-- A prefix operator on an integer: what C++ computes is, converted back, what the language
computes; with 32 bits nothing is to be converted. -/
theorem un_num (o : UOp) {v : Val} (h : isNum v.ty) :
    ∃ c w, cUn W o.op (.v v) = D.ret c ∧ unVal o v = some w ∧ conv W v.ty c = some w ∧ (v.ty ≠ .u8 → c = .v w) := by
  rcases val_num h rfl with ⟨n, rfl, _⟩ | ⟨n, rfl, _⟩
  · have hlt := n.isLt
    cases o with
    | pos =>
        refine ⟨.int n.toNat, _, ?_, rfl, ?_, fun h => absurd rfl h⟩
        · show D.opt (result (.i n.toNat)) = _
          rw [result_int (by omega) (by omega)]; rfl
        · show some (Val.u8 (BitVec.ofInt 8 (n.toNat : Int))) = _
          rw [ofInt_toNat]
    | neg =>
        refine ⟨.int (-n.toNat), _, ?_, rfl, ?_, fun h => absurd rfl h⟩
        · show D.opt (result (.i (-n.toNat))) = _
          rw [result_int (by omega) (by omega)]; rfl
        · show some (Val.u8 (BitVec.ofInt 8 (-(n.toNat : Int)))) = _
          rw [ofInt_neg8]
    | compl =>
        refine ⟨.int (-n.toNat - 1), _, ?_, rfl, ?_, fun h => absurd rfl h⟩
        · show D.opt (result (.i (-n.toNat - 1))) = _
          rw [result_int (by omega) (by omega)]; rfl
        · show some (Val.u8 (BitVec.ofInt 8 (-(n.toNat : Int) - 1))) = _
          rw [ofInt_not8]
  · cases o <;> exact ⟨_, _, rfl, rfl, rfl, fun _ => rfl⟩

theorem dec_eq8 (a b : BitVec 8) : decide ((a.toNat : Int) = (b.toNat : Int)) = (a == b) := by
  by_cases h : a = b
  · subst h; simp
  · have : a.toNat ≠ b.toNat := fun e => h (BitVec.eq_of_toNat_eq e)
    have h2 : ((a.toNat : Int) = (b.toNat : Int)) ↔ False := by constructor; (intro e; omega); exact False.elim
    simp [h, h2]

theorem dec_eq32 (a b : BitVec 32) : decide ((a.toNat : Int) = (b.toNat : Int)) = (a == b) := by
  by_cases h : a = b
  · subst h; simp
  · have : a.toNat ≠ b.toNat := fun e => h (BitVec.eq_of_toNat_eq e)
    have h2 : ((a.toNat : Int) = (b.toNat : Int)) ↔ False := by constructor; (intro e; omega); exact False.elim
    simp [h, h2]

theorem dec_ne8 (a b : BitVec 8) : decide ((a.toNat : Int) ≠ (b.toNat : Int)) = (a != b) := by
  rw [bne, ← dec_eq8]; by_cases h : (a.toNat : Int) = (b.toNat : Int) <;> simp [h]

theorem dec_ne32 (a b : BitVec 32) : decide ((a.toNat : Int) ≠ (b.toNat : Int)) = (a != b) := by
  rw [bne, ← dec_eq32]; by_cases h : (a.toNat : Int) = (b.toNat : Int) <;> simp [h]

/-- The same for a binary operator; only arithmetic on 8 bits leaves something to convert. -/
theorem bin_num (o : BOp) {v w : Val} (h : isNum v.ty) (hw : w.ty = v.ty) :
    ∃ c u, cBin W o.op (.v v) (.v w) = D.ret c ∧ binVal o v w = some u ∧ conv W (opTy o v.ty) c = some u ∧
      (opTy o v.ty ≠ .u8 → c = .v u) := by
  rcases val_num h rfl with ⟨a, rfl, _⟩ | ⟨a, rfl, _⟩
  · rcases val_num (Or.inl hw) rfl with ⟨b, rfl, _⟩ | ⟨b, rfl, _⟩
    · have ha := a.isLt
      have hb := b.isLt
      cases o with
      | add =>
          refine ⟨.int (a.toNat + b.toNat), _, ?_, rfl, ?_, fun h => absurd rfl h⟩
          · show D.opt (result (.i (a.toNat + b.toNat))) = _
            rw [result_int (by omega) (by omega)]; rfl
          · show some (Val.u8 (BitVec.ofInt 8 (a.toNat + b.toNat))) = _
            rw [ofInt_add8]
      | sub =>
          refine ⟨.int (a.toNat - b.toNat), _, ?_, rfl, ?_, fun h => absurd rfl h⟩
          · show D.opt (result (.i (a.toNat - b.toNat))) = _
            rw [result_int (by omega) (by omega)]; rfl
          · show some (Val.u8 (BitVec.ofInt 8 (a.toNat - b.toNat))) = _
            rw [ofInt_sub8]
      | mul =>
          have hm := toNat_mul_bound a b
          refine ⟨.int (a.toNat * b.toNat), _, ?_, rfl, ?_, fun h => absurd rfl h⟩
          · show D.opt (result (.i (a.toNat * b.toNat))) = _
            rw [result_int (by omega) (by omega)]; rfl
          · show some (Val.u8 (BitVec.ofInt 8 (a.toNat * b.toNat))) = _
            rw [ofInt_mul8]
      | eq =>
          refine ⟨_, _, rfl, rfl, ?_, fun _ => ?_⟩
          · show some (Val.bool (decide ((a.toNat : Int) = (b.toNat : Int)))) = _; rw [dec_eq8]
          · show CVal.v (Val.bool (decide ((a.toNat : Int) = (b.toNat : Int)))) = _; rw [dec_eq8]
      | ne =>
          refine ⟨_, _, rfl, rfl, ?_, fun _ => ?_⟩
          · show some (Val.bool (decide ((a.toNat : Int) ≠ (b.toNat : Int)))) = _; rw [dec_ne8]
          · show CVal.v (Val.bool (decide ((a.toNat : Int) ≠ (b.toNat : Int)))) = _; rw [dec_ne8]
      | lt =>
          refine ⟨_, _, rfl, rfl, ?_, fun _ => ?_⟩
          · show some (Val.bool (decide ((a.toNat : Int) < (b.toNat : Int)))) = _; simp only [Int.ofNat_lt]
          · show CVal.v (Val.bool (decide ((a.toNat : Int) < (b.toNat : Int)))) = _; simp only [Int.ofNat_lt]
      | le =>
          refine ⟨_, _, rfl, rfl, ?_, fun _ => ?_⟩
          · show some (Val.bool (decide ((a.toNat : Int) ≤ (b.toNat : Int)))) = _; simp only [Int.ofNat_le]
          · show CVal.v (Val.bool (decide ((a.toNat : Int) ≤ (b.toNat : Int)))) = _; simp only [Int.ofNat_le]
      | gt =>
          refine ⟨_, _, rfl, rfl, ?_, fun _ => ?_⟩
          · show some (Val.bool (decide ((a.toNat : Int) > (b.toNat : Int)))) = _; simp only [gt_iff_lt, Int.ofNat_lt]
          · show CVal.v (Val.bool (decide ((a.toNat : Int) > (b.toNat : Int)))) = _; simp only [gt_iff_lt, Int.ofNat_lt]
      | ge =>
          refine ⟨_, _, rfl, rfl, ?_, fun _ => ?_⟩
          · show some (Val.bool (decide ((a.toNat : Int) ≥ (b.toNat : Int)))) = _; simp only [ge_iff_le, Int.ofNat_le]
          · show CVal.v (Val.bool (decide ((a.toNat : Int) ≥ (b.toNat : Int)))) = _; simp only [ge_iff_le, Int.ofNat_le]
    · cases hw
  · rcases val_num (Or.inr hw) rfl with ⟨b, rfl, _⟩ | ⟨b, rfl, _⟩
    · cases hw
    · cases o with
      | add | sub | mul => exact ⟨_, _, rfl, rfl, rfl, fun _ => rfl⟩
      | eq =>
          refine ⟨_, _, rfl, rfl, ?_, fun _ => ?_⟩
          · show some (Val.bool (decide ((a.toNat : Int) = (b.toNat : Int)))) = _; rw [dec_eq32]
          · show CVal.v (Val.bool (decide ((a.toNat : Int) = (b.toNat : Int)))) = _; rw [dec_eq32]
      | ne =>
          refine ⟨_, _, rfl, rfl, ?_, fun _ => ?_⟩
          · show some (Val.bool (decide ((a.toNat : Int) ≠ (b.toNat : Int)))) = _; rw [dec_ne32]
          · show CVal.v (Val.bool (decide ((a.toNat : Int) ≠ (b.toNat : Int)))) = _; rw [dec_ne32]
      | lt =>
          refine ⟨_, _, rfl, rfl, ?_, fun _ => ?_⟩
          · show some (Val.bool (decide ((a.toNat : Int) < (b.toNat : Int)))) = _; simp only [Int.ofNat_lt]
          · show CVal.v (Val.bool (decide ((a.toNat : Int) < (b.toNat : Int)))) = _; simp only [Int.ofNat_lt]
      | le =>
          refine ⟨_, _, rfl, rfl, ?_, fun _ => ?_⟩
          · show some (Val.bool (decide ((a.toNat : Int) ≤ (b.toNat : Int)))) = _; simp only [Int.ofNat_le]
          · show CVal.v (Val.bool (decide ((a.toNat : Int) ≤ (b.toNat : Int)))) = _; simp only [Int.ofNat_le]
      | gt =>
          refine ⟨_, _, rfl, rfl, ?_, fun _ => ?_⟩
          · show some (Val.bool (decide ((a.toNat : Int) > (b.toNat : Int)))) = _; simp only [gt_iff_lt, Int.ofNat_lt]
          · show CVal.v (Val.bool (decide ((a.toNat : Int) > (b.toNat : Int)))) = _; simp only [gt_iff_lt, Int.ofNat_lt]
      | ge =>
          refine ⟨_, _, rfl, rfl, ?_, fun _ => ?_⟩
          · show some (Val.bool (decide ((a.toNat : Int) ≥ (b.toNat : Int)))) = _; simp only [ge_iff_le, Int.ofNat_le]
          · show CVal.v (Val.bool (decide ((a.toNat : Int) ≥ (b.toNat : Int)))) = _; simp only [ge_iff_le, Int.ofNat_le]

theorem ofInt_inc8 (a : BitVec 8) : BitVec.ofInt 8 ((a.toNat : Int) + 1) = a + 1#8 := by
  rw [BitVec.ofInt_add, ofInt_toNat]
  rfl

theorem ofInt_dec8 (a : BitVec 8) : BitVec.ofInt 8 ((a.toNat : Int) - 1) = a - 1#8 := by
  rw [Int.sub_eq_add_neg, BitVec.ofInt_add, ofInt_toNat, BitVec.sub_eq_add_neg]
  rfl

theorem cBin_int (o : Op) (a : BitVec 8) (i : Int) :
    cBin W o (.v (.u8 a)) (.int i) = D.opt (cBinInt o (.i a.toNat) (.i i)) := rfl
theorem cBinInt_plus (i j : Int) : cBinInt .plus (.i i) (.i j) = result (.i (i + j)) := rfl

theorem inc8 (a : BitVec 8) : ∃ c, cBin W .plus (.v (.u8 a)) (.int 1) = D.ret c ∧ conv W .u8 c = some (.u8 (a + 1#8)) := by
  have ha := a.isLt
  refine ⟨.int ((a.toNat : Int) + 1), ?_, ?_⟩
  · rw [cBin_int, cBinInt_plus, result_int (by omega) (by omega)]
    rfl
  · rw [← ofInt_inc8]; rfl

theorem dec8 (a : BitVec 8) : ∃ c, cBin W .minus (.v (.u8 a)) (.int 1) = D.ret c ∧ conv W .u8 c = some (.u8 (a - 1#8)) := by
  have ha := a.isLt
  refine ⟨.int ((a.toNat : Int) - 1), ?_, ?_⟩
  · simp only [cBin, promote, cBinInt, arith2, Option.bind]
    rw [result_int (by omega) (by omega)]
    rfl
  · simp only [conv, promote, Option.map, ofInt_dec8]

/-- one more, or one less -/
theorem bump_num (d : Bool) {v : Val} (h : isNum v.ty) :
    ∃ c w, cBin W (if d then .minus else .plus) (.v v) (.int 1) = D.ret c ∧
      binVal (if d then .sub else .add) v (one v) = some w ∧ conv W v.ty c = some w := by
  rcases val_num h rfl with ⟨a, rfl, _⟩ | ⟨a, rfl, _⟩
  · cases d with
    | false => obtain ⟨c, h1, h2⟩ := inc8 (W := W) a; exact ⟨c, _, h1, rfl, h2⟩
    | true => obtain ⟨c, h1, h2⟩ := dec8 (W := W) a; exact ⟨c, _, h1, rfl, h2⟩
  · cases d <;> exact ⟨_, _, rfl, rfl, rfl⟩

/-! ## Evaluations -/

/-- the language's values among C++'s -/
def up {α : Type} (o : Option (Val × α)) : Option (CVal × α) := o.map fun x => (.v x.1, x.2)

theorem den_cast (t : Ty) (c : C) : den (W := W) (castC t c) =
    D.seq (anyOrder [den c]) fun cs => match cs with
      | [c] => D.seq (D.opt (conv W t c)) fun v => D.ret (.v v)
      | _ => D.bad := by
  rw [castC, den, dens, dens]
  rfl

/-- a cast -/
theorem does_cast {t : Ty} {c : C} {s : W.σ} {τ : Nat → CVal} {o : Option (CVal × W.σ)} {Q : (Nat → CVal) → Prop}
    {o' : Option (Val × W.σ)} (h : Does (den c) s τ o Q)
    (hg : o.bind (fun x => (conv W t x.1).map fun v => (v, x.2)) = o') (hs : ∀ c s', o = some (c, s') → (conv W t c).isSome) :
    Does (den (castC t c)) s τ (up o') Q := by
  rw [den_cast]
  have h1 := anyOrder_one (f := fun _ => o) h
  refine (does_seq (o' := fun x => (match x.1 with | [c] => conv W t c | _ => none).map fun v => (.v v, x.2)) h1
    (fun cs s' τ' e hq => ?_)).of_eq ?_
  · cases o with
    | none => cases e
    | some x =>
        cases e
        have := hs x.1 x.2 rfl
        simp only
        cases hc : conv W t x.1 with
        | none => rw [hc] at this; cases this
        | some v =>
            have h2 := does_seq (f := fun v => D.ret (CVal.v v)) (o' := fun y => some (.v y.1, y.2)) (Q' := Q)
              (does_opt (W := W) (a := some v) rfl x.2 τ' hq) (fun a s2 τ2 _ hq2 => does_ret _ s2 τ2 hq2)
            exact h2
  · subst hg
    cases o with
    | none => rfl
    | some x =>
        simp only [up, Option.bind, Option.map]
        cases conv W t x.1 <;> rfl

/-- a cast to the type the value has -/
theorem does_cast_id {t : Ty} {c : C} {s : W.σ} {τ : Nat → CVal} {o : Option (Val × W.σ)} {Q : (Nat → CVal) → Prop}
    (h : Does (den c) s τ (up o) Q) (ht : ∀ v s', o = some (v, s') → v.ty = t) :
    Does (den (castC t c)) s τ (up o) Q := by
  refine does_cast (o' := o) h ?_ ?_
  · cases o with
    | none => rfl
    | some x => simp [up, conv_self (ht x.1 x.2 rfl)]
  · intro c' s' e
    cases o with
    | none => cases e
    | some x => cases e; rw [conv_self (ht x.1 x.2 rfl)]; rfl

theorem does_mv (t : Ty) {c : C} {s : W.σ} {τ : Nat → CVal} {o : Option (CVal × W.σ)} {Q : (Nat → CVal) → Prop}
    (h : Does (den c) s τ o Q) : Does (den (.call (.w (.mv t)) [c])) s τ o Q := by
  rw [den, dens, dens]
  have h1 := anyOrder_one (f := fun _ => o) h
  refine (does_seq (o' := fun x => match x.1 with | [c] => some (c, x.2) | _ => none) h1
    (fun cs s' τ' e hq => ?_)).of_eq ?_
  · cases o with
    | none => cases e
    | some x => cases e; exact does_ret _ _ τ' hq
  · cases o <;> rfl

theorem does_copyC (m : Mode) {t : Ty} {c : C} {s : W.σ} {τ : Nat → CVal} {o : Option (Val × W.σ)} {Q : (Nat → CVal) → Prop}
    (h : Does (den c) s τ (up o) Q) (ht : ∀ v s', o = some (v, s') → v.ty = t) :
    Does (den (copyC m t c)) s τ (up o) Q := by
  unfold copyC
  split
  · exact h
  · exact does_cast_id h ht

theorem does_copyNodeC (m : Mode) {t : Ty} {c : C} {s : W.σ} {τ : Nat → CVal} {o : Option (Val × W.σ)} {Q : (Nat → CVal) → Prop}
    (h : Does (den c) s τ (up o) Q) (ht : ∀ v s', o = some (v, s') → v.ty = t) :
    Does (den (copyNodeC m t c)) s τ (up o) Q := by
  unfold copyNodeC
  split
  · exact h
  · exact does_copyC m h ht

theorem does_moveC (m : Mode) {t : Ty} {c : C} {s : W.σ} {τ : Nat → CVal} {o : Option (Val × W.σ)} {Q : (Nat → CVal) → Prop}
    (h : Does (den c) s τ (up o) Q) (ht : ∀ v s', o = some (v, s') → v.ty = t) :
    Does (den (moveC m t c)) s τ (up o) Q := by
  unfold moveC
  split
  · exact does_copyC m h ht
  · exact does_mv t h

/-- the value of a temporary -/
theorem does_consume (m : Mode) {t : Ty} {id : Nat} (s : W.σ) {τ : Nat → CVal} {v : Val} (hv : τ id = .v v) (ht : v.ty = t)
    {Q : (Nat → CVal) → Prop} (hq : Q τ) : Does (den (consumeC m t id)) s τ (some (.v v, s)) Q := by
  have h : Does (den (W := W) (.w (.tmp id))) s τ (up (some (v, s))) Q := by
    rw [den]
    exact ⟨⟨_, rfl⟩, fun r hr => by subst hr; exact ⟨hv, rfl, hq⟩⟩
  exact does_moveC m h (fun v' s' e => by cases e; exact ht)

/-- into a temporary -/
theorem does_init {c : C} {id : Nat} {s : W.σ} {τ : Nat → CVal} {o : Option (CVal × W.σ)} {Q : (Nat → CVal) → Prop}
    (h : Does (den c) s τ o Q) : Does (den (initC id c)) s τ o
      (fun τ' => ∃ τ1, Q τ1 ∧ ∃ x, o = some x ∧ τ' id = x.1 ∧ ∀ i, i ≠ id → τ' i = τ1 i) := by
  rw [initC, den]
  refine (does_seq (o' := fun x => some x) h (fun a s' τ' e hq => ?_)).of_eq ?_
  · refine ⟨⟨_, rfl⟩, fun r hr => ?_⟩
    dsimp only at hr
    rw [if_pos rfl] at hr
    subst hr
    refine ⟨rfl, rfl, τ', hq, _, e, by simp, fun i hi => by simp [hi]⟩
  · cases o <;> rfl

theorem ctruth_v (v : Val) : ctruth W (.v v) = truth W v := rfl

theorem does_not {c : C} {s : W.σ} {τ : Nat → CVal} {o : Option (CVal × W.σ)} {Q : (Nat → CVal) → Prop}
    (h : Does (den c) s τ o Q) :
    Does (den (.un .bang c)) s τ (o.map fun x => (.v (.bool (!ctruth W x.1)), x.2)) Q := by
  rw [den.eq_def]
  dsimp only
  rw [if_neg (by decide)]
  exact does_map h

end Verif.CgMean
