import Verif.CgVia

/-!
# C92: every expression, in every mode
-/

namespace Verif.CgMean

open Verif.CgText Verif.CgExpr Verif.CppGram Verif.CgTree

variable {W : World}

theorem does_store {x : Nat} {c : CVal} {v : Val} (h : conv W (W.vty x) c = some v) (s : W.σ) (τ : Nat → CVal)
    {Q : (Nat → CVal) → Prop} (hq : Q τ) : Does (store W x c) s τ (some (.v v, W.set x v s)) Q := by
  unfold store
  rw [h]
  exact does_act _ s τ hq

theorem does_load (x : Nat) (s : W.σ) (τ : Nat → CVal) {Q : (Nat → CVal) → Prop} (hq : Q τ) :
    Does (load x) s τ (some (.v (W.get x s), s)) Q := does_act (W := W) (fun s => some (CVal.v (W.get x s), s)) s τ hq

theorem does_bump (d : Bool) {x : Nat} (s : W.σ) (τ : Nat → CVal) (h : isNum (W.vty x)) {Q : (Nat → CVal) → Prop} (hq : Q τ) :
    ∃ w, binVal (if d then .sub else .add) (W.get x s) (one (W.get x s)) = some w ∧
      Does (bump W (incOp d) x) s τ (some (.v w, W.set x w s)) Q := by
  obtain ⟨c, w, h1, h2, h3⟩ := bump_num (W := W) d (v := W.get x s) (by rw [W.get_ty]; exact h)
  refine ⟨w, h2, ?_⟩
  unfold bump
  have hop : (if incOp d = .inc then Op.plus else .minus) = if d then .minus else .plus := by cases d <;> rfl
  rw [hop]
  refine does_seq (o' := fun _ => some (CVal.v w, W.set x w s)) (does_load x s τ hq) (fun a s' τ' e hq' => ?_)
  cases e
  rw [h1, ret_seq]
  rw [W.get_ty] at h3
  exact does_store h3 _ _ hq'

theorem unpromote_does {native : Bool} {t : Ty} {c : C} {s : W.σ} {τ : Nat → CVal} {o : Option (CVal × W.σ)}
    {Q : (Nat → CVal) → Prop} {o' : Option (Val × W.σ)} (h : Does (den c) s τ o Q)
    (h8 : native = true → t = .u8 → o.bind (fun x => (conv W t x.1).map fun v => (v, x.2)) = o' ∧
      ∀ c s', o = some (c, s') → (conv W t c).isSome)
    (hne : (native && decide (t = .u8)) = false → o = up o') : Does (den (unpromoteC native t c)) s τ (up o') Q := by
  unfold unpromoteC
  by_cases hn : (native && decide (t = .u8)) = true
  · rw [if_pos hn]
    simp only [Bool.and_eq_true, decide_eq_true_eq] at hn
    obtain ⟨h1, h2⟩ := h8 hn.1 hn.2
    exact does_cast h h1 h2
  · rw [if_neg hn]
    rw [Bool.not_eq_true] at hn
    rw [← hne hn]
    exact h

theorem den_call (f : Nat) (args : List C) : den (W := W) (.call (.w (.fn f)) args) =
    D.seq (anyOrder (dens args)) fun cs => match plains cs with
      | some vs => D.seq (D.act (W.call f vs)) fun v => D.ret (.v v)
      | none => D.bad := by
  rw [den]; rfl

theorem den_bin (o : BOp) (a b : C) : den (W := W) (.bin o.op a b) =
    D.seq (anyOrder (dens [a, b])) fun cs => match cs with
      | [c, d] => cBin W o.op c d
      | _ => D.bad := by
  rw [den, dens, dens, dens]
  rw [if_neg (by cases o <;> decide), if_neg (by cases o <;> decide)]
  rfl

/-- the operands of a binary operator are arguments -/
theorem bin_args (mask : Nat) (a b : N) (k : Nat) :
    (trArgs mask 0 [a, b] k).1 =
      (if held mask 0 a [b] then [initC (cg argMode a k).2 (tr argMode a k)] else []) ++
      (if held mask 1 b [] then [initC (cg argMode b (if held mask 0 a [b] then (cg argMode a k).2 + 1 else (cg argMode a k).2)).2
        (tr argMode b (if held mask 0 a [b] then (cg argMode a k).2 + 1 else (cg argMode a k).2))] else []) ∧
    (trArgs mask 0 [a, b] k).2 =
      [if held mask 0 a [b] then consumeC argMode a.ty (cg argMode a k).2 else tr argMode a k,
       if held mask 1 b [] then consumeC argMode b.ty (cg argMode b (if held mask 0 a [b] then (cg argMode a k).2 + 1 else (cg argMode a k).2)).2
         else tr argMode b (if held mask 0 a [b] then (cg argMode a k).2 + 1 else (cg argMode a k).2)] ∧
    (cgArgs mask 0 [a, b] k).2.2 =
      (if held mask 1 b [] then (cg argMode b (if held mask 0 a [b] then (cg argMode a k).2 + 1 else (cg argMode a k).2)).2 + 1
        else (cg argMode b (if held mask 0 a [b] then (cg argMode a k).2 + 1 else (cg argMode a k).2)).2) := by
  simp only [trArgs, cgArgs]
  cases held mask 0 a [b] <;> cases h : held mask (0 + 1) b [] <;> simp_all

/-- The operator on the promoted values. -/
def rawVal (o : BOp) (x y : Val) : Option CVal :=
  (promote (.v x)).bind fun p => (promote (.v y)).bind fun q => cBinInt o.op p q

/-- A prefix operator on the promoted value. -/
def rawUn (o : UOp) (x : Val) : Option CVal := (promote (.v x)).bind (cUnInt o.op)

/-- What a binary operator leaves before it is cast back. -/
def rawBin (W : World) (o : BOp) (a b : N) : M W CVal := fun s =>
  (run W a s).bind fun x => (run W b x.2).bind fun y =>
    if prim a.ty then (rawVal o x.1 y.1).map fun c => (c, y.2)
    else up (W.binop o x.1 y.1 y.2)

theorem binop_of (o : BOp) : bopOf o.op = some o := by cases o <;> rfl
theorem unop_of (o : UOp) : uopOf o.op = some o := by cases o <;> rfl

/-- the operands, and the operator -/
theorem bin_does (o : BOp) (mask : Nat) (a b : N) (t : Ty) (hT : Typed W (.bin t o mask a b)) (ha : Sim W argMode a) (hb : Sim W argMode b)
    (k : Nat) (s : W.σ) (τ : Nat → CVal) (h c d : _) (hh : (trArgs mask 0 [a, b] k).1 = h) (hcd : (trArgs mask 0 [a, b] k).2 = [c, d]) :
    Does (D.seq (each h) fun _ => den (.bin o.op c d)) s τ (rawBin W o a b s) (Agree k (cgArgs mask 0 [a, b] k).2.2 τ) := by
  simp only [Typed] at hT
  have hargs := args_does (W := W) mask [a, b] (by
      intro x hx; simp only [List.mem_cons, List.not_mem_nil, or_false] at hx
      rcases hx with rfl | rfl <;> assumption) (by
      intro x hx; simp only [List.mem_cons, List.not_mem_nil, or_false] at hx
      rcases hx with rfl | rfl
      · exact hT.1
      · exact hT.2.1) hT.2.2.1 k s τ
      (fun cs => match cs with | [c, d] => cBin W o.op c d | _ => D.bad)
      (fun vs s => match vs with
        | [x, y] => if prim a.ty then (rawVal o x y).map fun c => (c, s)
          else up (W.binop o x y s)
        | _ => none) ?_
  · rw [hh, hcd] at hargs
    have e : (fun _ : Unit => den (W := W) (.bin o.op c d)) = fun _ => D.seq (anyOrder (dens [c, d])) fun cs => match cs with
        | [c, d] => cBin W o.op c d
        | _ => D.bad := by funext _; exact den_bin o c d
    rw [e]
    refine hargs.of_eq ?_
    unfold rawBin
    simp only [runL]
    cases run W a s with
    | none => rfl
    | some x =>
        simp only [Option.bind]
        cases run W b x.2 with
        | none => rfl
        | some y => rfl
  · rintro vs s2 τ2 ⟨s0, hr⟩
    simp only [runL] at hr
    cases h1 : run W a s0 with
    | none => rw [h1] at hr; cases hr
    | some x =>
        rw [h1] at hr
        simp only [Option.bind] at hr
        cases h2 : run W b x.2 with
        | none => rw [h2] at hr; cases hr
        | some y =>
            rw [h2] at hr
            simp only [Option.map, Option.some.injEq, Prod.mk.injEq] at hr
            obtain ⟨rfl, rfl⟩ := hr
            have hx := run_ty hT.1 (v := x.1) (s' := x.2) h1
            have hy := run_ty hT.2.1 (v := y.1) (s' := y.2) h2
            simp only [List.map_cons, List.map_nil]
            cases hp : prim a.ty with
            | true =>
                have h4 := hT.2.2.2
                rw [hp] at h4
                simp only [if_true] at h4 ⊢
                obtain ⟨c', u, e1, e2, e3, e4⟩ := bin_num (W := W) o (v := x.1) (w := y.1) (by rw [hx]; exact h4.1) (by rw [hx, hy]; exact h4.2.1)
                have e5 : rawVal o x.1 y.1 = some c' := by
                  obtain ⟨xv, xs⟩ := x
                  have hn : isNum xv.ty := by
                    have : xv.ty = a.ty := hx
                    rw [this]; exact h4.1
                  rcases val_num hn rfl with ⟨n, rfl, _⟩ | ⟨n, rfl, _⟩
                  · have e1' : D.opt (W := W) ((promote (.v (.u8 n))).bind fun p => (promote (.v y.1)).bind fun q => cBinInt o.op p q) = D.ret c' := e1
                    exact opt_ret e1' y.2 τ2
                  · have e1' : D.opt (W := W) ((promote (.v (.u32 n))).bind fun p => (promote (.v y.1)).bind fun q => cBinInt o.op p q) = D.ret c' := e1
                    exact opt_ret e1' y.2 τ2
                rw [e5, e1]
                exact does_ret _ _ _ rfl
            | false =>
                simp only [Bool.false_eq_true, if_false]
                obtain ⟨xv, xs⟩ := x
                have : ∃ q n, xv = .obj q n := by
                  have hx' : xv.ty = a.ty := hx
                  rw [← hx'] at hp
                  cases xv with
                  | obj q n => exact ⟨q, n, rfl⟩
                  | _ => exact absurd hp (by simp [prim, Val.ty])
                obtain ⟨q, n, rfl⟩ := this
                simp only [cBin, binop_of, plain]
                exact (does_map (does_act _ y.2 τ2 (Q := fun τ' => τ' = τ2) rfl)).of_eq (by unfold up; rfl)
where
  opt_ret {a : Option CVal} {c : CVal} (h : D.opt (W := W) a = D.ret c) (s : W.σ) (τ : Nat → CVal) : a = some c := by
    cases a with
    | none =>
        have := congrFun (congrFun h (s, τ)) none
        simp only [D.opt, D.bad, D.ret] at this
        have h2 := this.mp trivial
        cases h2
    | some x =>
        have := congrFun (congrFun h (s, τ)) (some (x, (s, τ)))
        have h2 : some (x, (s, τ)) = some (c, (s, τ)) := cast (α := D.opt (some x) (s, τ) (some (x, (s, τ)))) this rfl
        cases h2; rfl

/-- cast back, the operator gives what it gives in the language -/
theorem rawBin_conv (o : BOp) (mask : Nat) (a b : N) (t : Ty) (hT : Typed W (.bin t o mask a b)) (s : W.σ) :
    ((rawBin W o a b s).bind fun x => (conv W t x.1).map fun v => (v, x.2)) = run W (.bin t o mask a b) s ∧
    (∀ c s', rawBin W o a b s = some (c, s') → (conv W t c).isSome) ∧
    ((prim a.ty && decide (t = .u8)) = false → rawBin W o a b s = up (run W (.bin t o mask a b) s)) := by
  simp only [Typed] at hT
  simp only [run, rawBin]
  cases h1 : run W a s with
  | none => exact ⟨rfl, fun c s' h => (by cases h), fun _ => rfl⟩
  | some x =>
      have hx := run_ty hT.1 (v := x.1) (s' := x.2) h1
      simp only [Option.bind]
      cases h2 : run W b x.2 with
      | none => exact ⟨rfl, fun c s' h => (by cases h), fun _ => rfl⟩
      | some y =>
          have hy := run_ty hT.2.1 (v := y.1) (s' := y.2) h2
          simp only
          cases hp : prim a.ty with
          | true =>
              have h4 := hT.2.2.2
              rw [hp] at h4
              simp only [if_true] at h4 ⊢
              obtain ⟨c', u, e1, e2, e3, e4⟩ := bin_num (W := W) o (v := x.1) (w := y.1) (by rw [hx]; exact h4.1) (by rw [hx, hy]; exact h4.2.1)
              have e5 : rawVal o x.1 y.1 = some c' := by
                obtain ⟨xv, xs⟩ := x
                have hn : isNum xv.ty := by
                  have : xv.ty = a.ty := hx
                  rw [this]; exact h4.1
                rcases val_num hn rfl with ⟨n, rfl, _⟩ | ⟨n, rfl, _⟩
                · have e1' : D.opt (W := W) ((promote (.v (.u8 n))).bind fun p => (promote (.v y.1)).bind fun q => cBinInt o.op p q) = D.ret c' := e1
                  exact bin_does.opt_ret e1' y.2 (fun _ => .int 0)
                · have e1' : D.opt (W := W) ((promote (.v (.u32 n))).bind fun p => (promote (.v y.1)).bind fun q => cBinInt o.op p q) = D.ret c' := e1
                  exact bin_does.opt_ret e1' y.2 (fun _ => .int 0)
              have ht : t = opTy o x.1.ty := by rw [hx]; exact h4.2.2
              rw [hx] at e3 e4
              rw [← h4.2.2] at e3 e4
              rw [e2, e5]
              refine ⟨by simp only [Option.map, e3], fun c s' h => by cases h; rw [e3]; rfl, fun h => ?_⟩
              have hne : t ≠ .u8 := by intro e; rw [e] at h; simp at h
              rw [e4 hne]; rfl
          | false =>
              have h4 := hT.2.2.2
              rw [hp] at h4
              simp only [Bool.false_eq_true, if_false] at h4 ⊢
              cases hb : W.binop o x.1 y.1 y.2 with
              | none => exact ⟨rfl, fun c s' h => (by cases h), by simp⟩
              | some z =>
                  have hz : z.1.ty = t := by rw [W.binop_ty _ _ _ _ z.1 z.2 hb, h4]
                  refine ⟨?_, ?_, by simp⟩
                  · simp [up, conv_self hz]
                  · intro c s' h; cases h; rw [conv_self hz]; rfl

theorem cgArgs_end (mask : Nat) (a b : N) (k : Nat) (m : Mode) (t : Ty) (o : BOp) :
    (cg m (.bin t o mask a b) k).2 = (cgArgs mask 0 [a, b] k).2.2 := by
  rw [(bin_args mask a b k).2.2]
  simp only [cg]

theorem tr_bin (m : Mode) (t : Ty) (o : BOp) (mask : Nat) (a b : N) (k : Nat) : ∃ c d,
    (trArgs mask 0 [a, b] k).2 = [c, d] ∧
    tr m (.bin t o mask a b) k = if skipParens m o && (trArgs mask 0 [a, b] k).1.isEmpty then .bin o.op c d
      else ooeC (trArgs mask 0 [a, b] k).1 (unpromoteC (prim a.ty) t (.bin o.op c d)) := by
  refine ⟨_, _, (bin_args mask a b k).2.1, ?_⟩
  rw [(bin_args mask a b k).1]
  simp only [tr]

/-- a sequence and then a cast -/
theorem does_seq_unit {β : Type} {h : D W Unit} {d : D W β} {s : W.σ} {τ : Nat → CVal} {o : Option (β × W.σ)} {Q : (Nat → CVal) → Prop}
    {α : Type} {f : β → D W α} {g : β × W.σ → Option (α × W.σ)}
    (hd : Does (D.seq h fun _ => d) s τ o Q)
    (hf : ∀ b s' τ', o = some (b, s') → Q τ' → Does (f b) s' τ' (g (b, s')) Q) :
    Does (D.seq h fun _ => D.seq d f) s τ (o.bind g) Q := by
  have := does_seq (f := f) (o' := g) (Q' := Q) hd hf
  rw [seq_assoc] at this
  exact this

theorem seq_any_one (d : D W CVal) : anyOrder [d] = D.seq d fun v => D.ret [v] := by
  funext s r
  apply propext
  have hin : D.seq (inOrder [d] [0]) (fun vs => D.ret (place [d].length vs)) = D.seq d fun v => D.ret [v] := by
    simp only [inOrder]
    rw [seq_assoc]
    congr 1
    funext v
    rw [seq_assoc, ret_seq, ret_seq]
    rfl
  constructor
  · rintro ⟨order, hp, hr⟩
    rw [List.perm_singleton.1 (show order.Perm [0] from hp), hin] at hr
    exact hr
  · intro hr
    refine ⟨[0], List.Perm.refl _, ?_⟩
    rw [hin]; exact hr

/-- **What is written for an expression does what the expression does.** -/
theorem sim_aux : ∀ (n : Nat) (e : N), sizeOf e < n → Typed W e → ∀ m, closed m → Sim W m e := by
  intro n
  induction n with
  | zero => intro e h; omega
  | succ n ih =>
      intro e hn hT m hm k s τ
      have HL : ∀ (l : List N), sizeOf l < n → TypedL W l → ∀ x ∈ l, Typed W x ∧ ∀ m, closed m → Sim W m x :=
        fun l hl ht x hx => ⟨ht.mem x hx, ih x (by have := List.sizeOf_lt_of_mem hx; omega) (ht.mem x hx)⟩
      cases e with
      | var t x =>
          simp only [tr, cg, den]
          exact (does_act (W := W) (fun s => some (CVal.v (W.get x s), s)) s τ (Agree.refl _ _ _)).of_eq (by simp [run, up])
      | flag b =>
          simp only [tr, cg]
          cases b <;> simp only [Bool.false_eq_true, if_false, if_true, den] <;>
            exact (does_ret _ s τ (Agree.refl _ _ _)).of_eq (by simp [run, up])
      | num t j =>
          simp only [Typed] at hT
          simp only [tr, cg, run]
          have h0 : Does (den (W := W) (.w (.num j))) s τ (up (some (.u32 (BitVec.ofNat 32 j), s))) (Agree k k τ) := by
            rw [den]; exact does_ret _ s τ (Agree.refl _ _ _)
          rcases hT with rfl | rfl
          · rw [if_pos rfl]
            refine does_cast h0 ?_ ?_
            · simp only [up, Option.map, Option.bind, conv, promote, if_true]
              congr 1
              congr 2
              apply BitVec.eq_of_toNat_eq
              simp only [BitVec.toNat_setWidth, BitVec.toNat_ofNat]
              omega
            · intro c s' h; cases h; rfl
          · rw [if_neg (by decide)]
            exact h0
      | fld t e f =>
          simp only [Typed] at hT
          have h := ih e (by simp at hn; omega) hT.1 argMode closed_arg k s τ
          simp only [tr, cg, run]
          rw [den]
          refine (does_seq (o' := fun x => match x.1 with | .v a => some (.v (W.field f a), x.2) | _ => none) h
            (fun c s' τ' he hq => ?_)).of_eq ?_
          · cases hr : run W e s with
            | none => rw [hr] at he; cases he
            | some x =>
                rw [hr] at he
                cases he
                have hx := run_ty hT.1 (v := x.1) (s' := x.2) hr
                obtain ⟨xv, xs⟩ := x
                have hx' : xv.ty = e.ty := hx
                have hp := hT.2.2
                rw [← hx'] at hp
                cases xv with
                | obj q n => exact does_ret _ _ _ hq
                | _ => exact absurd hp (by simp [prim, Val.ty])
          · cases run W e s <;> rfl
      | call t f mask args =>
          simp only [Typed] at hT
          have H := HL args (by simp at hn; omega) hT.1
          simp only [tr, cg, run]
          rw [den_ooe]
          have e : (fun _ : Unit => den (W := W) (.call (.w (.fn f)) (trArgs mask 0 args k).2)) = fun _ =>
              D.seq (anyOrder (dens (trArgs mask 0 args k).2)) fun cs => match plains cs with
                | some vs => D.seq (D.act (W.call f vs)) fun v => D.ret (.v v)
                | none => D.bad := by funext _; exact den_call _ _
          rw [e]
          refine (args_does (W := W) mask args (fun a ha => (H a ha).2 argMode closed_arg) (fun a ha => (H a ha).1) hT.2.2 k s τ _
            (fun vs s => up (W.call f vs s)) ?_).of_eq ?_
          · intro vs s2 τ2 _
            rw [args_does.plains_map]
            exact (does_map (does_act _ s2 τ2 (Q := fun τ' => τ' = τ2) rfl)).of_eq (by unfold up; rfl)
          · cases runL W args s with
            | none => rfl
            | some x => rfl
      | un t o e =>
          simp only [Typed] at hT
          have h := ih e (by simp at hn; omega) hT.1 argMode closed_arg k s τ
          simp only [tr, cg]
          have hop : ¬ (o.op = .inc ∨ o.op = .dec) := by cases o <;> decide
          cases hp : prim e.ty with
          | true =>
              have h4 := hT.2
              rw [hp] at h4
              simp only [if_true] at h4
              -- the value before it is cast back
              let raw : Option (CVal × W.σ) := (run W e s).bind fun x => (rawUn o x.1).map fun c => (c, x.2)
              have hraw : ∀ x, run W e s = some x → ∃ c w, rawUn o x.1 = some c ∧ unVal o x.1 = some w ∧
                  conv W t c = some w ∧ (t ≠ .u8 → c = .v w) ∧ cUn W o.op (.v x.1) = D.ret c := by
                intro x hr
                have hx := run_ty hT.1 (v := x.1) (s' := x.2) hr
                obtain ⟨c, w, e1, e2, e3, e4⟩ := un_num (W := W) o (v := x.1) (by rw [hx]; exact h4.1)
                rw [hx, ← h4.2] at e3 e4
                refine ⟨c, w, ?_, e2, e3, e4, e1⟩
                obtain ⟨xv, xs⟩ := x
                have hn : isNum xv.ty := by
                  have : xv.ty = e.ty := hx
                  rw [this]; exact h4.1
                have hb : o.op ≠ .bang := by cases o <;> decide
                rcases val_num hn rfl with ⟨n, rfl, _⟩ | ⟨n, rfl, _⟩
                · have e1' : D.opt (W := W) ((promote (.v (.u8 n))).bind (cUnInt o.op)) = D.ret c := by
                    rw [← e1]; unfold cUn; rw [if_neg hb]
                  exact bin_does.opt_ret e1' s τ
                · have e1' : D.opt (W := W) ((promote (.v (.u32 n))).bind (cUnInt o.op)) = D.ret c := by
                    rw [← e1]; unfold cUn; rw [if_neg hb]
                  exact bin_does.opt_ret e1' s τ
              have hd : Does (den (.un o.op (tr argMode e k))) s τ raw (Agree k (cg argMode e k).2 τ) := by
                rw [den.eq_def]
                dsimp only
                rw [if_neg hop]
                refine (does_seq (o' := fun _ => raw) h (fun c s' τ' he hq => ?_)).of_eq ?_
                · cases hr : run W e s with
                  | none => rw [hr] at he; cases he
                  | some x =>
                      rw [hr] at he
                      cases he
                      obtain ⟨c, w, e1, _, _, _, e5⟩ := hraw x hr
                      rw [e5]
                      refine (does_ret c x.2 τ' hq).of_eq ?_
                      show _ = (run W e s).bind _
                      rw [hr]
                      simp only [Option.bind]
                      rw [e1]; rfl
                · cases hr : run W e s with
                  | none => simp only [raw, hr]; rfl
                  | some x => simp only [up, Option.map, Option.bind]
              refine unpromote_does hd ?_ ?_
              · intro _ _
                simp only [run, hp, if_true]
                cases hr : run W e s with
                | none => exact ⟨by simp only [raw, hr]; rfl, fun c s' h => by simp only [raw, hr] at h; cases h⟩
                | some x =>
                    obtain ⟨c, w, e1, e2, e3, _, _⟩ := hraw x hr
                    simp only [raw, hr, Option.bind]
                    rw [e1, e2]
                    refine ⟨?_, fun c' s' h => by cases h; rw [e3]; rfl⟩
                    simp only [Option.map, e3]
              · intro hne
                have ht : t ≠ .u8 := by intro e; rw [e] at hne; simp at hne
                simp only [run, hp, if_true]
                cases hr : run W e s with
                | none => simp only [raw, hr]; rfl
                | some x =>
                    obtain ⟨c, w, e1, e2, _, e4, _⟩ := hraw x hr
                    simp only [raw, hr, Option.bind]
                    rw [e1, e2, e4 ht]
                    rfl
          | false =>
              simp only [unpromoteC, Bool.false_and, Bool.false_eq_true, if_false]
              rw [den.eq_def]
              dsimp only
              rw [if_neg hop]
              refine (does_seq (o' := fun x => match x.1 with | .v a => up (W.unop o a x.2) | _ => none) h
                (fun c s' τ' he hq => ?_)).of_eq ?_
              · cases hr : run W e s with
                | none => rw [hr] at he; cases he
                | some x =>
                    rw [hr] at he
                    cases he
                    have hx := run_ty hT.1 (v := x.1) (s' := x.2) hr
                    obtain ⟨xv, xs⟩ := x
                    have hx' : xv.ty = e.ty := hx
                    rw [← hx'] at hp
                    have hb : o.op ≠ .bang := by cases o <;> decide
                    cases xv with
                    | obj q n =>
                        simp only [cUn, hb, if_false, unop_of]
                        exact (does_map (does_act _ _ τ' hq)).of_eq (by unfold up; rfl)
                    | _ => exact absurd hp (by simp [prim, Val.ty])
              · simp only [run, hp, Bool.false_eq_true, if_false]
                cases run W e s <;> rfl
      | bin t o mask a b =>
          have hT' := hT
          simp only [Typed] at hT'
          have ha := ih a (by simp at hn; omega) hT'.1 argMode closed_arg
          have hb := ih b (by simp at hn; omega) hT'.2.1 argMode closed_arg
          obtain ⟨c, d, hcd, htr⟩ := tr_bin m t o mask a b k
          rw [htr, skipParens_open hm, cgArgs_end]
          simp only [Bool.false_and, Bool.false_eq_true, if_false]
          have h := bin_does o mask a b t hT ha hb k s τ _ c d rfl hcd
          obtain ⟨r1, r2, r3⟩ := rawBin_conv o mask a b t hT s
          rw [den_ooe]
          unfold unpromoteC
          by_cases hu : (prim a.ty && decide (t = .u8)) = true
          · rw [if_pos hu]
            have e : (fun _ : Unit => den (W := W) (castC t (.bin o.op c d))) = fun _ =>
                D.seq (den (.bin o.op c d)) fun c => D.seq (D.opt (conv W t c)) fun v => D.ret (.v v) := by
              funext _
              rw [den_cast, seq_any_one, seq_assoc]
              congr 1
              funext v
              rw [ret_seq]
            rw [e]
            refine (does_seq_unit (g := fun x => (conv W t x.1).map fun v => (.v v, x.2)) h (fun c' s' τ' he hq => ?_)).of_eq ?_
            · have hsome := r2 c' s' he
              cases hc : conv W t c' with
              | none => rw [hc] at hsome; cases hsome
              | some v =>
                  have := does_seq (f := fun v => D.ret (CVal.v v)) (o' := fun y => some (.v y.1, y.2)) (Q' := Agree k (cgArgs mask 0 [a, b] k).2.2 τ)
                    (does_opt (W := W) (a := some v) rfl s' τ' hq) (fun a s2 τ2 _ hq2 => does_ret _ s2 τ2 hq2)
                  exact this
            · rw [← r1]
              cases rawBin W o a b s with
              | none => rfl
              | some x =>
                  simp only [Option.bind, up]
                  cases conv W t x.1 <;> rfl
          · rw [if_neg hu]
            rw [Bool.not_eq_true] at hu
            rw [← r3 hu]
            exact h
      | asg t o x e =>
          simp only [Typed] at hT
          have h := ih e (by simp at hn; omega) hT.1 { abAll := true } ⟨rfl, rfl⟩ k s τ
          simp only [tr, cg, run]
          rw [den]
          have hget : ∀ s, (W.get x s).ty = t := fun s => by rw [W.get_ty]; exact hT.2.1.symm
          refine (does_seq (o' := fun p => match p.1 with
            | .v a => up ((asgVal o (W.get x p.2) a).map fun v => (v, W.set x v p.2))
            | _ => none) h (fun c s' τ' he hq => ?_)).of_eq ?_
          · cases hr : run W e s with
            | none => rw [hr] at he; cases he
            | some p =>
                rw [hr] at he
                cases he
                have hx : p.1.ty = t := by rw [run_ty hT.1 (v := p.1) (s' := p.2) hr]; exact hT.2.2.1
                have arith : ∀ bo : BOp, isNum t → opTy bo t = t → ∃ u, binVal bo (W.get x p.2) p.1 = some u ∧
                    Does (D.seq (load x) fun old => D.seq (cBin W bo.op old (.v p.1)) fun v => store W x v) p.2 τ'
                      (some (.v u, W.set x u p.2)) (Agree k (cg { abAll := true } e k).2 τ) := by
                  intro bo hnum hop
                  obtain ⟨c', u, e1, e2, e3, e4⟩ := bin_num (W := W) bo (v := W.get x p.2) (w := p.1)
                    (by rw [hget]; exact hnum) (by rw [hget, hx])
                  refine ⟨u, e2, ?_⟩
                  refine does_seq (o' := fun _ => some (CVal.v u, W.set x u p.2))
                    (does_load x p.2 τ' hq) (fun a s2 τ2 e hq' => ?_)
                  cases e
                  rw [e1, ret_seq]
                  rw [hget, hop, hT.2.1] at e3
                  exact does_store e3 _ _ hq'
                cases o with
                | set =>
                    exact does_store (conv_self (by rw [hx]; exact hT.2.1)) _ _ hq
                | add =>
                    obtain ⟨u, hu, hd⟩ := arith .add (hT.2.2.2 (by simp)) rfl
                    simp only [asgVal, hu]
                    exact hd
                | sub =>
                    obtain ⟨u, hu, hd⟩ := arith .sub (hT.2.2.2 (by simp)) rfl
                    simp only [asgVal, hu]
                    exact hd
          · cases run W e s <;> rfl
      | pre t d x =>
          simp only [Typed] at hT
          simp only [tr, cg, run]
          obtain ⟨w, hw, hd⟩ := does_bump (W := W) d (x := x) s τ (by rw [← hT.1]; exact hT.2) (Agree.refl k k τ)
          rw [hw, den]
          rw [if_pos (by cases d <;> decide)]
          exact hd
      | post t d x =>
          simp only [Typed] at hT
          simp only [tr, cg, run]
          obtain ⟨w, hw, hd⟩ := does_bump (W := W) d (x := x) s τ (by rw [← hT.1]; exact hT.2) (Agree.refl k k τ)
          rw [hw]
          have h0 : Does (den (.post (incOp d) (.w (.var x)))) s τ (up (some (W.get x s, W.set x w s))) (Agree k k τ) := by
            rw [den, if_pos (by cases d <;> decide)]
            refine does_seq (o' := fun _ => some (CVal.v (W.get x s), W.set x w s)) (does_load x s τ (Q := fun τ' => τ' = τ) rfl)
              (fun a s' τ' e hq => ?_)
            cases e
            subst hq
            refine does_seq (o' := fun y => some (CVal.v (W.get x s), y.2)) hd (fun b s2 τ2 e2 hq2 => ?_)
            exact does_ret _ _ _ hq2
          refine unpromote_does h0 ?_ (fun _ => rfl)
          intro _ _
          have hc : conv W t (.v (W.get x s)) = some (W.get x s) := conv_self (by rw [W.get_ty]; exact hT.1.symm)
          refine ⟨?_, ?_⟩
          · simp [up, hc]
          · intro c s' h; cases h; rw [hc]; rfl
      | not e =>
          simp only [Typed] at hT
          have h := ih e (by simp at hn; omega) hT {} closed_empty k s τ
          simp only [tr, cg, run]
          refine (does_not h).of_eq ?_
          cases run W e s <;> rfl
      | ite t c a b =>
          simp only [Typed] at hT
          have hc := ih c (by simp at hn; omega) hT.1 {} closed_empty k s τ
          have ha := ih a (by simp at hn; omega) hT.2.1 m.pass (closed_pass m) (cg {} c k).2
          have hb := ih b (by simp at hn; omega) hT.2.2.1 m.pass (closed_pass m) (cg m.pass a (cg {} c k).2).2
          simp only [tr, cg, run]
          have l1 := cg_le {} c k
          have l2 := cg_le m.pass a (cg {} c k).2
          have l3 := cg_le m.pass b (cg m.pass a (cg {} c k).2).2
          -- a branch
          have br : ∀ (x : N) (cx : C) (s : W.σ) (τ : Nat → CVal) (Q : (Nat → CVal) → Prop), Typed W x → (t ≠ .bool → x.ty = t) →
              Does (den cx) s τ (up (run W x s)) Q →
              Does (den (asBoolC t x.ty cx)) s τ (up ((run W x s).map fun y => (at' W t y.1, y.2))) Q := by
            intro x cx s τ Q hTx htx h
            unfold asBoolC
            by_cases hb : (decide (t = .bool) && decide (x.ty ≠ .bool)) = true
            · rw [if_pos hb]
              simp only [Bool.and_eq_true, decide_eq_true_eq] at hb
              refine (does_not (does_not h)).of_eq ?_
              rw [hb.1]
              cases run W x s with
              | none => rfl
              | some y => simp [up, at', ctruth, truth]
            · rw [if_neg hb]
              refine h.of_eq ?_
              cases hr : run W x s with
              | none => rfl
              | some y =>
                  simp only [up, Option.map]
                  by_cases ht : t = .bool
                  · have hxb : x.ty = .bool := by
                      simpa [ht] using hb
                    have := run_ty hTx (v := y.1) (s' := y.2) hr
                    rw [hxb] at this
                    obtain ⟨yv, ys⟩ := y
                    cases yv with
                    | bool b => simp [at', ht, truth]
                    | _ => cases this
                  · rw [at_other ht]
          refine (does_cond (F := fun p => .v p.1) (T := fun p => truth W p.1)
            (ga := fun p => up ((run W a p.2).map fun y => (at' W t y.1, y.2)))
            (gb := fun p => up ((run W b p.2).map fun y => (at' W t y.1, y.2))) (fun _ => rfl)
            (o := run W c s) (hc.of_eq rfl) ?_ ?_).of_eq ?_
          · rintro ⟨u, s1⟩ τ' hr _ hq
            refine br a _ s1 τ' _ hT.2.1 (fun h => (hT.2.2.2 h).1) ((ha s1 τ').mono (fun τ2 h => ?_))
            exact hq.trans h (Nat.le_refl _) (by omega) (by omega) (by omega)
          · rintro ⟨u, s1⟩ τ' hr _ hq
            refine br b _ s1 τ' _ hT.2.2.1 (fun h => (hT.2.2.2 h).2) ((hb s1 τ').mono (fun τ2 h => ?_))
            exact hq.trans h (Nat.le_refl _) (by omega) (by omega) (by omega)
          · cases run W c s with
            | none => rfl
            | some p =>
                simp only [Option.bind]
                by_cases ht : truth W p.1 = true
                · rw [if_pos ht, if_pos ht]
                · rw [if_neg ht, if_neg ht]
      | and t items =>
          simp only [Typed] at hT
          have H := HL items (by simp at hn; omega) hT.2.1
          have hlen : (items.length == 1) = false := by have := hT.1; simp; omega
          simp only [tr, cg, run]
          by_cases ht : t = .bool
          · rw [if_pos ht, if_pos ht, hlen]
            refine (concat_and items (fun x hx => (H x hx).2 {} closed_empty) hT.1 k s τ).of_eq ?_
            rw [ht, asB_eq_up]; rfl
          · rw [if_neg ht, if_neg ht]
            refine ((andV_does t items (by intro h; rw [h] at hT; simp at hT) (fun x hx => ⟨(H x hx).2 {} closed_empty, (H x hx).1, hT.2.2 ht x hx, ?_⟩)
              none k s τ).of_eq ?_).mono (fun τ' h => h.none)
            · intro t' e he _
              have h1 := (H x hx).1
              subst he
              simp only [Typed] at h1
              refine ih e ?_ h1.1 {} closed_empty
              have := List.sizeOf_lt_of_mem hx
              simp at this hn
              omega
            · cases runAnd W items s with
              | none => rfl
              | some p => simp only [Option.map, at_other ht]
      | or t items =>
          simp only [Typed] at hT
          have hlen : (items.length == 1) = false := by have := hT.1; simp; omega
          simp only [tr, cg, run]
          by_cases ht : t = .bool
          · have hT2 := hT.2
            rw [if_pos ht] at hT2
            have H := HL items (by simp at hn; omega) hT2
            rw [if_pos ht, if_pos ht, hlen]
            refine (concat_or items (fun x hx => (H x hx).2 {} closed_empty) hT.1 k s τ).of_eq ?_
            rw [ht, asB_eq_up]; rfl
          · have hT2 := hT.2
            rw [if_neg ht] at hT2
            rw [if_neg ht, if_neg ht]
            refine ((orV_does m.pass t ht items (by intro h; rw [h] at hT; simp at hT) hT2 (fun x hx => ?_) none k s τ).of_eq ?_).mono
              (fun τ' h => h.none)
            · have hsz := List.sizeOf_lt_of_mem hx
              have hsz2 : sizeOf x < n := by simp at hn; omega
              refine ⟨fun h => ⟨ih x hsz2 h {} closed_empty, ih x hsz2 h m.pass (closed_pass m)⟩, ?_, ?_⟩
              · intro t' e he _ hTe
                refine ih e ?_ hTe {} closed_empty
                subst he; simp at hsz2; omega
              · intro ta its he y hy
                subst he
                have hsy := List.sizeOf_lt_of_mem hy
                simp at hsz2
                refine ⟨fun h => ih y (by omega) h {} closed_empty, ?_⟩
                intro t' e he _ hTe
                refine ih e ?_ hTe {} closed_empty
                subst he; simp at hsy; omega
            · cases runOr W items s with
              | none => rfl
              | some p => simp only [Option.map, at_other ht]
      | copy t e =>
          simp only [Typed] at hT
          have h := ih e (by simp at hn; omega) hT.1 {} closed_empty k s τ
          simp only [tr, cg, run]
          exact does_copyNodeC m h (fun v s' hv => by rw [run_ty hT.1 hv]; exact hT.2)

theorem sim {e : N} (h : Typed W e) {m : Mode} (hm : closed m) : Sim W m e := sim_aux _ e (Nat.lt_succ_self _) h m hm

end Verif.CgMean
