import Verif.CgMain

/-!
# C92: the C++ written for an expression means the expression

`Means t f`: the text `t` is an expression of C++ (the C++ reader groups it in exactly one way), it can
be evaluated from every state, and *every* way C++ may evaluate it gives the outcome `f` gives.
-/

namespace Verif.CgMean

open Verif.CgText Verif.CgExpr Verif.CppGram Verif.CgTree

/-- Read as C++, the text does, however C++ chooses to evaluate it, what `f` does, seen through `view`;
the temporaries may hold anything before. -/
def Means (W : World) {α : Type} (t : List Sym) (view : CVal → α) (f : M W α) : Prop :=
  ∃ c, ReadsAs t c ∧ ∀ (s : W.σ) (τ : Nat → CVal),
    (∃ r, den c (s, τ) r) ∧ ∀ r, den c (s, τ) r → (r.map fun y => (view y.1, y.2.1)) = f s

/-- In a mode that leaves the parentheses out, arithmetic on 8 bits is not cast back
(`binSkipParens` and `unpromote`, src/codegen.fu 2289-2311, 2495-2532). -/
def loose (m : Mode) : N → Bool
  | .bin t o _ a _ => prim a.ty && decide (t = .u8) && skipParens m o
  | _ => false

/-- Arithmetic on 8 bits: a result that C++ gives as an `int`. -/
def narrow : N → Bool
  | .bin .u8 _ _ a _ => prim a.ty
  | _ => false

theorem not_loose {e : N} (h : narrow e = false) (m : Mode) : loose m e = false := by
  cases e with
  | bin t o q a b =>
      cases t with
      | u8 => simp only [narrow] at h; simp [loose, h]
      | _ => simp [loose]
  | _ => rfl

variable {W : World}

/-- the mode that asks for parentheses -/
def shut (m : Mode) : Mode := { m with stmt := false, parens := false }

theorem closed_shut (m : Mode) : closed (shut m) := ⟨rfl, rfl⟩

/-- the tree does not depend on the parentheses, but for binary operators -/
theorem tr_shut (m : Mode) (e : N) (k : Nat) (h : ∀ t o q a b, e ≠ .bin t o q a b) :
    tr m e k = tr (shut m) e k ∧ (cg m e k).2 = (cg (shut m) e k).2 := by
  have hp : (shut m).pass = m.pass := rfl
  cases e with
  | bin t o q a b => exact absurd rfl (h t o q a b)
  | copy t e =>
      simp only [tr, cg]
      refine ⟨?_, trivial⟩
      unfold copyNodeC copyC
      have : skipsCopy (shut m) t = skipsCopy m t := by cases t <;> rfl
      rw [this]; rfl
  | _ => simp only [tr, cg, hp, and_self]

/-- in every mode, unless what is written is arithmetic on 8 bits that is not cast back -/
theorem sim_tight {e : N} (hT : Typed W e) {m : Mode} (h : loose m e = false) : Sim W m e := by
  by_cases hb : ∃ t o q a b, e = .bin t o q a b
  · obtain ⟨t, o, q, a, b, rfl⟩ := hb
    intro k s τ
    have h1 := sim hT (closed_shut m) k s τ
    have hT' := hT
    simp only [Typed] at hT'
    obtain ⟨c, d, hcd, htr⟩ := tr_bin m t o q a b k
    rw [htr, cgArgs_end]
    by_cases hs : (skipParens m o && (trArgs q 0 [a, b] k).1.isEmpty) = true
    · rw [if_pos hs]
      simp only [Bool.and_eq_true, List.isEmpty_iff] at hs
      have h2 := bin_does o q a b t hT (sim hT'.1 closed_arg) (sim hT'.2.1 closed_arg) k s τ _ c d hs.2 hcd
      simp only [each, ret_seq] at h2
      have hu : (prim a.ty && decide (t = .u8)) = false := by
        simp only [loose, hs.1, Bool.and_true] at h; exact h
      rw [(rawBin_conv o q a b t hT s).2.2 hu] at h2
      exact h2
    · rw [if_neg hs]
      obtain ⟨c', d', hcd', htr'⟩ := tr_bin (shut m) t o q a b k
      rw [hcd] at hcd'
      cases hcd'
      rw [htr', cgArgs_end, skipParens_open (closed_shut m)] at h1
      simpa using h1
  · have hne : ∀ t o q a b, e ≠ .bin t o q a b := fun t o q a b he => hb ⟨t, o, q, a, b, he⟩
    intro k s τ
    obtain ⟨e1, e2⟩ := tr_shut m e k hne
    rw [e1, e2]
    exact sim hT (closed_shut m) k s τ

/-- in every mode, once the value is converted to the type of the expression -/
theorem sim_conv {e : N} (hT : Typed W e) (m : Mode) (k : Nat) (s : W.σ) (τ : Nat → CVal) :
    ∃ o, Does (den (tr m e k)) s τ o (fun _ => True) ∧
      (o.map fun x => (conv W e.ty x.1, x.2)) = (run W e s).map fun x => (some x.1, x.2) := by
  by_cases hl : loose m e = false
  · refine ⟨_, (sim_tight hT hl k s τ).mono (fun _ _ => trivial), ?_⟩
    cases hr : run W e s with
    | none => rfl
    | some x => simp [up, conv_self (run_ty hT (v := x.1) (s' := x.2) hr)]
  · obtain ⟨t, o, q, a, b, rfl⟩ : ∃ t o q a b, e = .bin t o q a b := by
      cases e with
      | bin t o q a b => exact ⟨t, o, q, a, b, rfl⟩
      | _ => exact absurd rfl hl
    have hT' := hT
    simp only [Typed] at hT'
    obtain ⟨c, d, hcd, htr⟩ := tr_bin m t o q a b k
    obtain ⟨r1, r2, r3⟩ := rawBin_conv o q a b t hT s
    by_cases hs : (skipParens m o && (trArgs q 0 [a, b] k).1.isEmpty) = true
    · rw [htr, if_pos hs]
      simp only [Bool.and_eq_true, List.isEmpty_iff] at hs
      have h2 := bin_does o q a b t hT (sim hT'.1 closed_arg) (sim hT'.2.1 closed_arg) k s τ _ c d hs.2 hcd
      simp only [each, ret_seq] at h2
      refine ⟨_, h2.mono (fun _ _ => trivial), ?_⟩
      rw [← r1]
      show (rawBin W o a b s).map (fun x => (conv W t x.1, x.2)) = _
      cases hr : rawBin W o a b s with
      | none => rfl
      | some x =>
          have := r2 x.1 x.2 hr
          simp only [Option.map, Option.bind]
          cases hc : conv W t x.1 with
          | none => rw [hc] at this; cases this
          | some v => rfl
    · have h1 := sim hT (closed_shut m) k s τ
      obtain ⟨c', d', hcd', htr'⟩ := tr_bin (shut m) t o q a b k
      rw [hcd] at hcd'
      cases hcd'
      rw [htr', skipParens_open (closed_shut m)] at h1
      rw [htr, if_neg hs]
      simp only [Bool.false_and, Bool.false_eq_true, if_false] at h1
      refine ⟨_, h1.mono (fun _ _ => trivial), ?_⟩
      cases hr : run W (.bin t o q a b) s with
      | none => rfl
      | some x =>
          have := conv_self (W := W) (run_ty hT (v := x.1) (s' := x.2) hr)
          simp only [up, Option.map, this]

theorem Does.view {α : Type} {d : D W CVal} {s : W.σ} {τ : Nat → CVal} {o : Option (CVal × W.σ)} {Q : (Nat → CVal) → Prop}
    (h : Does d s τ o Q) (view : CVal → α) {o' : Option (α × W.σ)} (ho : (o.map fun x => (view x.1, x.2)) = o') :
    (∃ r, d (s, τ) r) ∧ ∀ r, d (s, τ) r → (r.map fun y => (view y.1, y.2.1)) = o' := by
  refine ⟨h.1, fun r hr => ?_⟩
  have := h.2 r hr
  subst ho
  cases o with
  | none => cases r with
      | none => rfl
      | some y => exact this.elim
  | some x => cases r with
      | none => exact this.elim
      | some y => simp only [Option.map]; rw [this.1, this.2.1]

/-- The value as the language knows it. -/
def asVal (c : CVal) : Option Val := plain c

/-- **A value.**  Wherever an expression is written as an operand, an argument, an initialiser or a
value to store, the text means the expression: C++ reads it, can evaluate it, and however it orders
what it may order, the variables and the value are those of the language.

Missing from the full property ("for every expression"): the expressions that are not of the `shape`
(see `neg_neg_bug`, `prefix_field_bug`), masks that are not good enough (see `pointless_seq_bug`),
and the nodes the model leaves out. -/
theorem expr_emitted_partial (W : World) (e : N) (hs : shape e = true) (hT : Typed W e) (m : Mode) (hm : closed m) (k : Nat) :
    Means W (text (cg m e k).1) asVal (fun s => (run W e s).map fun x => (some x.1, x.2)) := by
  refine ⟨tr m e k, cg_reads m e k hs, fun s τ => (sim hT hm k s τ).view asVal ?_⟩
  show _ = (run W e s).map _
  cases run W e s <;> rfl

/-- **A returned value** (`M_PARENS|M_RETURN|M_ABBREVIATE_PASSBYVAL_COPIES`, src/codegen.fu 2114; or any
other mode), converted to the type of the expression as `return` does. -/
theorem return_emitted_partial (W : World) (e : N) (hs : shape e = true) (hT : Typed W e) (m : Mode) (k : Nat) :
    Means W (text (cg m e k).1) (conv W e.ty) (fun s => (run W e s).map fun x => (some x.1, x.2)) := by
  refine ⟨tr m e k, cg_reads m e k hs, fun s τ => ?_⟩
  obtain ⟨o, h1, h2⟩ := sim_conv hT m k s τ
  exact h1.view _ h2

/-- **A statement** (`M_STMT`, or any other mode): what it does to the variables. -/
theorem stmt_emitted_partial (W : World) (e : N) (hs : shape e = true) (hT : Typed W e) (m : Mode) (k : Nat) :
    Means W (text (cg m e k).1) (fun _ => ()) (fun s => (run W e s).map fun x => ((), x.2)) := by
  refine ⟨tr m e k, cg_reads m e k hs, fun s τ => ?_⟩
  obtain ⟨o, h1, h2⟩ := sim_conv hT m k s τ
  refine h1.view (fun _ => ()) ?_
  show _ = (run W e s).map _
  cases o with
  | none => cases hr : run W e s with
      | none => rfl
      | some x => rw [hr] at h2; cases h2
  | some y => cases hr : run W e s with
      | none => rw [hr] at h2; cases h2
      | some x =>
          rw [hr] at h2
          simp only [Option.map, Option.some.injEq, Prod.mk.injEq] at h2 ⊢
          exact ⟨trivial, h2.2⟩

/-- **A condition** (`M_RETBOOL | M_PARENS`, src/codegen.fu 2970, 3273; or any other mode): it is true
when the expression is.  Not proved, because it is false, for arithmetic on 8 bits
(`narrow_condition_bug`). -/
theorem condition_emitted_partial (W : World) (e : N) (hs : shape e = true) (hT : Typed W e) (m : Mode)
    (hn : narrow e = false) (k : Nat) :
    Means W (text (cg m e k).1) (ctruth W) (fun s => (run W e s).map fun x => (truth W x.1, x.2)) := by
  refine ⟨tr m e k, cg_reads m e k hs, fun s τ => (sim_tight hT (not_loose hn m) k s τ).view _ ?_⟩
  show _ = (run W e s).map _
  cases run W e s <;> rfl

/-! ## A world -/

/-- The number in a value. -/
def Val.nat : Val → Nat
  | .bool b => if b then 1 else 0
  | .u8 n => n.toNat
  | .u32 n => n.toNat
  | .obj _ n => n

/-- Variables 0 to 9 hold 32 bits, 10 to 19 hold 8 bits, the others structs.  The functions give ten
times their first argument and the second. -/
def demo : World where
  σ := Nat → Nat
  vty x := if x < 10 then .u32 else if x < 20 then .u8 else .obj false
  get x s := if x < 10 then .u32 (BitVec.ofNat 32 (s x)) else if x < 20 then .u8 (BitVec.ofNat 8 (s x)) else .obj false (s x)
  set x v s := fun y => if y = x then v.nat else s y
  get_ty x s := by
    by_cases h1 : x < 10
    · simp [h1, Val.ty]
    · by_cases h2 : x < 20 <;> simp [h1, h2, Val.ty]
  fty _ := .u32
  field f v := .u32 (BitVec.ofNat 32 (v.nat + f))
  field_ty _ _ := rfl
  rty _ := .u32
  call _ vs s := some (.u32 (BitVec.ofNat 32 (10 * ((vs.map Val.nat).getD 0 0) + (vs.map Val.nat).getD 1 0)), s)
  call_ty _ _ _ _ _ h := by cases h; rfl
  uty _ := .obj false
  unop _ v s := some (.obj false (v.nat + 1), s)
  unop_ty _ _ _ _ _ h := by cases h; rfl
  bty _ := .obj false
  binop _ v w s := some (.obj false (v.nat + w.nat), s)
  binop_ty _ _ _ _ _ _ h := by cases h; rfl
  truthy v := v.nat != 0

/-- `f(x++, x + 1)`: the solver asks for the first argument to come first. -/
def exArgs : N := .call .u32 0 1 [.post .u32 false 0, .bin .u32 .add 0 (.var .u32 0) (.num .u32 1)]

theorem exArgs_text : text (cg {} exArgs 0).1 =
    text [.op .lpar, .w (.tmp 0), .sp, .op .asg, .sp, .w (.var 0), .op .inc, .op .comma, .sp,
      .w (.fn 0), .op .lpar, .w (.tmp 0), .op .comma, .sp, .op .lpar, .w (.var 0), .sp, .op .plus, .sp, .w (.num 1), .op .rpar,
      .op .rpar, .op .rpar] := by
  simp [exArgs, cg, cgArgs, held, chain, commaJoin, ooeWrap, paren, nm, op, sop, init, consume, cgMove, cgCopy, skipsCopy,
    argMode, prim, N.ty, unpromote, BOp.op, incOp, skipParens]

theorem exArgs_typed : Typed demo exArgs := by
  have h0 : demo.vty 0 = .u32 := rfl
  have h1 : demo.rty 0 = .u32 := rfl
  simp only [exArgs, Typed, TypedL, Seqd, isNum, h0, h1, prim, N.ty, opTy]
  simp
  refine ⟨fun s => rfl, fun h => ?_⟩
  rcases h with h | h <;> cases h

/-- the hypotheses of `expr_emitted_partial` and of the others are met -/
example : shape exArgs = true ∧ Typed demo exArgs ∧ closed {} ∧ narrow exArgs = false := ⟨rfl, exArgs_typed, closed_empty, rfl⟩

/-- With `x` three, the first argument is three and the second five. -/
example (s : Nat → Nat) (h : s 0 = 3) : ∃ s', run demo exArgs s = some (.u32 35, s') := by
  simp [exArgs, run, runL, demo, h, binVal, one, prim, N.ty, Val.nat]

/-! ## What is not so -/

/-- `-(-x)` -/
def exNegNeg : N := .un .u32 .neg (.un .u32 .neg (.var .u32 0))
/-- `--x` -/
def exDec : N := .pre .u32 true 0

/-- **`-(-x)` is written `--x`**: it takes one from the variable. -/
theorem neg_neg_bug : text (cg {} exNegNeg 0).1 = text (cg {} exDec 0).1 ∧
    Typed demo exNegNeg ∧
    Means demo (text (cg {} exNegNeg 0).1) asVal (fun s => (run demo exDec s).map fun x => (some x.1, x.2)) ∧
    ¬ Means demo (text (cg {} exNegNeg 0).1) asVal (fun s => (run demo exNegNeg s).map fun x => (some x.1, x.2)) := by
  have ht : text (cg {} exNegNeg 0).1 = text (cg {} exDec 0).1 := rfl
  have h1 : Means demo (text (cg {} exDec 0).1) asVal (fun s => (run demo exDec s).map fun x => (some x.1, x.2)) :=
    expr_emitted_partial demo exDec rfl (by simp [exDec, Typed, demo, isNum]) {} closed_empty 0
  refine ⟨ht, by simp [exNegNeg, Typed, demo, isNum, prim, N.ty], by rw [ht]; exact h1, ?_⟩
  rw [ht]
  rintro ⟨c, hc, h⟩
  obtain ⟨c', hc', h'⟩ := h1
  have := hc.unique hc'
  subst this
  let s : Nat → Nat := fun _ => 5
  obtain ⟨⟨r, hr⟩, hall⟩ := h s (fun _ => .int 0)
  have e1 := hall r hr
  have e2 := (h' s (fun _ => .int 0)).2 r hr
  rw [e1] at e2
  simp [exNegNeg, exDec, run, demo, s, binVal, one, unVal, prim, N.ty] at e2

/-- `(~v).x`, of a struct -/
def exTildeField : N := .fld .u32 (.un (.obj false) .compl (.var (.obj false) 20)) 0
/-- `~(v.x)` -/
def exFieldTilde : N := .un .u32 .compl (.fld .u32 (.var (.obj false) 20) 0)

/-- **`(~v).x` is written `~v.x`**, which is `~(v.x)`. -/
theorem prefix_field_bug : text (cg {} exTildeField 0).1 = text (cg {} exFieldTilde 0).1 ∧
    Typed demo exTildeField ∧
    ¬ Means demo (text (cg {} exTildeField 0).1) asVal (fun s => (run demo exTildeField s).map fun x => (some x.1, x.2)) := by
  have ht : text (cg {} exTildeField 0).1 = text (cg {} exFieldTilde 0).1 := rfl
  have h1 : Means demo (text (cg {} exFieldTilde 0).1) asVal (fun s => (run demo exFieldTilde s).map fun x => (some x.1, x.2)) :=
    expr_emitted_partial demo exFieldTilde rfl (by simp [exFieldTilde, Typed, demo, isNum, prim, N.ty]) {} closed_empty 0
  refine ⟨ht, by simp [exTildeField, Typed, demo, prim, N.ty], ?_⟩
  rw [ht]
  rintro ⟨c, hc, h⟩
  obtain ⟨c', hc', h'⟩ := h1
  have := hc.unique hc'
  subst this
  let s : Nat → Nat := fun _ => 5
  obtain ⟨⟨r, hr⟩, hall⟩ := h s (fun _ => .int 0)
  have e1 := hall r hr
  have e2 := (h' s (fun _ => .int 0)).2 r hr
  rw [e1] at e2
  simp [exTildeField, exFieldTilde, run, demo, s, unVal, prim, N.ty, Val.nat] at e2

/-- `a + b`, of 8 bits -/
def exNarrow : N := .bin .u8 .add 0 (.var .u8 10) (.var .u8 11)

theorem comm_pure (f g : demo.σ → Val) : Comm (W := demo) (fun s => some (f s, s)) (fun s => some (g s, s)) := by
  intro s; rfl

/-- **`if (a + b)` with 8 bits**: 200 and 56 are 0 in the language, 256 in C++, which is true. -/
theorem narrow_condition_bug : shape exNarrow = true ∧ Typed demo exNarrow ∧
    ¬ Means demo (text (cg { parens := true } exNarrow 0).1) (ctruth demo)
      (fun s => (run demo exNarrow s).map fun x => (truth demo x.1, x.2)) := by
  have hT : Typed demo exNarrow := by
    simp only [exNarrow, Typed, Seqd, isNum, demo, prim, N.ty, opTy]
    simp
    intro s
    rfl
  refine ⟨rfl, hT, ?_⟩
  rintro ⟨c, hc, h⟩
  have := hc.unique (cg_reads { parens := true } exNarrow 0 rfl)
  subst this
  let s : Nat → Nat := fun x => if x = 10 then 200 else 56
  have hT' := hT
  rw [exNarrow, Typed] at hT'
  have hd := bin_does .add 0 (.var .u8 10) (.var .u8 11) .u8 hT (sim hT'.1 closed_arg) (sim hT'.2.1 closed_arg) 0 s (fun _ => .int 0)
    [] (.w (.var 10)) (.w (.var 11)) rfl rfl
  simp only [each, ret_seq] at hd
  have htr : tr { parens := true } exNarrow 0 = .bin .plus (.w (.var 10)) (.w (.var 11)) := by
    simp [exNarrow, tr, held, skipParens, BOp.op]
  rw [htr] at h
  have hraw : rawBin demo .add (.var .u8 10) (.var .u8 11) s = some (.int 256, s) := by
    simp [rawBin, run, demo, s, prim, N.ty, rawVal, promote, cBinInt, BOp.op, arith2, result]
  rw [hraw] at hd
  obtain ⟨⟨r, hr⟩, hall⟩ := h s (fun _ => .int 0)
  have e1 := hall r hr
  have e2 := (hd.view (ctruth demo) rfl).2 r hr
  rw [e1] at e2
  simp [exNarrow, run, demo, s, binVal, prim, N.ty, ctruth, truth] at e2

/-- `f(x++, x)`, both in the mask -/
def exPointless : N := .call .u32 0 3 [.post .u32 false 0, .var .u32 0]

/-- **`f(x++, x)` is written as it is, though the solver asks for the first argument to come first**: only
field chains follow, so the sequencing is taken to be pointless (`isPointlessMustSeq`, src/codegen.fu
2400-2443).  C++ may then give 34 or 33 where the language gives 34. -/
theorem pointless_seq_bug : shape exPointless = true ∧
    text (cg {} exPointless 0).1 = text [.w (.fn 0), .op .lpar, .w (.var 0), .op .inc, .op .comma, .sp, .w (.var 0), .op .rpar] ∧
    ∃ c, ReadsAs (text (cg {} exPointless 0).1) c ∧ ∀ (s : Nat → Nat) (τ : Nat → CVal), s 0 = 3 →
      (∃ s', den (W := demo) c (s, τ) (some (.v (.u32 34), s'))) ∧ (∃ s', den (W := demo) c (s, τ) (some (.v (.u32 33), s'))) := by
  refine ⟨rfl, by simp [exPointless, cg, cgArgs, held, chain, commaJoin, ooeWrap, paren, nm, op, unpromote, incOp],
    _, cg_reads {} exPointless 0 rfl, ?_⟩
  intro s τ hs
  have htr : tr {} exPointless 0 = .call (.w (.fn 0)) [.post .inc (.w (.var 0)), .w (.var 0)] := by
    simp [exPointless, tr, trArgs, held, chain, ooeC, unpromoteC, incOp]
  have hden : den (W := demo) (.post .inc (.w (.var 0))) (s, τ) (some (.v (.u32 3), (fun y => if y = 0 then 4 else s y), τ)) := by
    have hh := does_bump (W := demo) false (x := 0) s τ (by simp [demo, isNum]) (Q := fun τ' => τ' = τ) rfl
    obtain ⟨w, hw, ⟨r, hr⟩, hall⟩ := hh
    have hw' : w = .u32 4 := by
      simp [demo, hs, binVal, one] at hw
      exact hw.symm
    subst hw'
    have hm := hall r hr
    cases r with
    | none => exact hm.elim
    | some y =>
        rw [den, if_pos (by decide)]
        refine ⟨_, rfl, some y, hr, ?_⟩
        show _ = _
        obtain ⟨h1, h2, h3⟩ := hm
        obtain ⟨y1, y2, y3⟩ := y
        simp only at h1 h2 h3
        subst h1 h2 h3
        simp [demo, hs, Val.nat]
  have hv : ∀ s : Nat → Nat, den (W := demo) (.w (.var 0)) (s, τ) (some (.v (.u32 (BitVec.ofNat 32 (s 0))), s, τ)) := by
    intro s
    rw [den]
    rfl
  rw [htr, den_call]
  constructor
  · refine ⟨_, some ([.v (.u32 3), .v (.u32 4)], (fun y => if y = 0 then 4 else s y), τ), ⟨[0, 1], List.Perm.refl _,
      some ([(0, .v (.u32 3)), (1, .v (.u32 4))], (fun y => if y = 0 then 4 else s y), τ),
      ⟨_, hden, _, ⟨_, hv _, _, rfl, rfl⟩, rfl⟩, rfl⟩, some (.u32 34, _, τ), rfl, rfl⟩
  · refine ⟨_, some ([.v (.u32 3), .v (.u32 3)], (fun y => if y = 0 then 4 else s y), τ), ⟨[1, 0], by decide,
      some ([(1, .v (.u32 (BitVec.ofNat 32 (s 0)))), (0, .v (.u32 3))], (fun y => if y = 0 then 4 else s y), τ),
      ⟨_, hv _, _, ⟨_, hden, _, rfl, rfl⟩, rfl⟩, ?_⟩, some (.u32 33, _, τ), rfl, rfl⟩
    rw [hs]; rfl

end Verif.CgMean
