import Verif.CgExpr
import Verif.CppGram

/-!
# C92: what an expression means, in the language and in C++

Specification.  `run` is what the language promises about a solved expression: operands from left to
right, `&&` and `||` stop at the first operand that decides, integers wrap at their width.  `den` is
what C++ promises about the tree the text is grouped into: the operands of a call and of a binary
operator come in *any* order, small integers are computed with as `int`, the value of a conditional is
that of the branch taken.

The world — what variables hold, what functions do — is whatever one likes (`World`).  A function may
also not come back (`none`).
-/

namespace Verif.CgMean

open Verif.CgText Verif.CgExpr Verif.CppGram

/-- A value. -/
inductive Val where
  | bool (b : Bool)
  | u8 (n : BitVec 8)
  | u32 (n : BitVec 32)
  | obj (vec : Bool) (n : Nat)
deriving DecidableEq, Repr

def Val.ty : Val → Ty
  | .bool _ => .bool
  | .u8 _ => .u8
  | .u32 _ => .u32
  | .obj v _ => .obj v

/-- What variables hold, what fields, functions and operators of structs do. -/
structure World where
  σ : Type
  vty : Nat → Ty
  get : Nat → σ → Val
  set : Nat → Val → σ → σ
  get_ty : ∀ x s, (get x s).ty = vty x
  fty : Nat → Ty
  field : Nat → Val → Val
  field_ty : ∀ f v, (field f v).ty = fty f
  rty : Nat → Ty
  call : Nat → List Val → σ → Option (Val × σ)
  call_ty : ∀ f vs s v s', call f vs s = some (v, s') → v.ty = rty f
  /-- prefix operators of structs -/
  uty : UOp → Ty
  unop : UOp → Val → σ → Option (Val × σ)
  unop_ty : ∀ o v s w s', unop o v s = some (w, s') → w.ty = uty o
  /-- binary operators of structs -/
  bty : BOp → Ty
  binop : BOp → Val → Val → σ → Option (Val × σ)
  binop_ty : ∀ o v w s x s', binop o v w s = some (x, s') → x.ty = bty o
  /-- is a struct or an array true? -/
  truthy : Val → Bool

variable (W : World)

/-- Is the value true? -/
def truth : Val → Bool
  | .bool b => b
  | .u8 n => n != 0
  | .u32 n => n != 0
  | v => W.truthy v

/-! ## The language -/

/-- A prefix operator on an integer. -/
def unVal : UOp → Val → Option Val
  | .pos, .u8 n => some (.u8 n)
  | .neg, .u8 n => some (.u8 (-n))
  | .compl, .u8 n => some (.u8 (~~~n))
  | .pos, .u32 n => some (.u32 n)
  | .neg, .u32 n => some (.u32 (-n))
  | .compl, .u32 n => some (.u32 (~~~n))
  | _, _ => none

/-- A binary operator on integers of the same type. -/
def binVal : BOp → Val → Val → Option Val
  | .add, .u8 a, .u8 b => some (.u8 (a + b))
  | .sub, .u8 a, .u8 b => some (.u8 (a - b))
  | .mul, .u8 a, .u8 b => some (.u8 (a * b))
  | .eq, .u8 a, .u8 b => some (.bool (a == b))
  | .ne, .u8 a, .u8 b => some (.bool (a != b))
  | .lt, .u8 a, .u8 b => some (.bool (decide (a.toNat < b.toNat)))
  | .le, .u8 a, .u8 b => some (.bool (decide (a.toNat ≤ b.toNat)))
  | .gt, .u8 a, .u8 b => some (.bool (decide (b.toNat < a.toNat)))
  | .ge, .u8 a, .u8 b => some (.bool (decide (b.toNat ≤ a.toNat)))
  | .add, .u32 a, .u32 b => some (.u32 (a + b))
  | .sub, .u32 a, .u32 b => some (.u32 (a - b))
  | .mul, .u32 a, .u32 b => some (.u32 (a * b))
  | .eq, .u32 a, .u32 b => some (.bool (a == b))
  | .ne, .u32 a, .u32 b => some (.bool (a != b))
  | .lt, .u32 a, .u32 b => some (.bool (decide (a.toNat < b.toNat)))
  | .le, .u32 a, .u32 b => some (.bool (decide (a.toNat ≤ b.toNat)))
  | .gt, .u32 a, .u32 b => some (.bool (decide (b.toNat < a.toNat)))
  | .ge, .u32 a, .u32 b => some (.bool (decide (b.toNat ≤ a.toNat)))
  | _, _, _ => none

/-- The value an assignment stores. -/
def asgVal (o : AOp) (old new : Val) : Option Val :=
  match o with
  | .set => some new
  | .add => binVal .add old new
  | .sub => binVal .sub old new

/-- One of the type. -/
def one : Val → Val
  | .u8 _ => .u8 1
  | _ => .u32 1

/-- The value of `&&`, `||` and `if` at a type: a truth value, or the value as it is. -/
def at' (t : Ty) (v : Val) : Val := if t = .bool then .bool (truth W v) else v

/-- A computation of the program. -/
abbrev M (α : Type) := W.σ → Option (α × W.σ)

mutual
/-- What an expression of the language does and gives. -/
def run : N → M W Val
  | .var _ x, s => some (W.get x s, s)
  | .num t k, s => some (if t = .u8 then .u8 (BitVec.ofNat 8 k) else .u32 (BitVec.ofNat 32 k), s)
  | .flag b, s => some (.bool b, s)
  | .fld _ e f, s => (run e s).bind fun x => some (W.field f x.1, x.2)
  | .call _ f _ args, s => (runL args s).bind fun x => W.call f x.1 x.2
  | .un _ o e, s => (run e s).bind fun x =>
      if prim e.ty then (unVal o x.1).map fun v => (v, x.2) else W.unop o x.1 x.2
  | .bin _ o _ a b, s => (run a s).bind fun x => (run b x.2).bind fun y =>
      if prim a.ty then (binVal o x.1 y.1).map fun v => (v, y.2) else W.binop o x.1 y.1 y.2
  | .asg _ o x e, s => (run e s).bind fun y =>
      (asgVal o (W.get x y.2) y.1).map fun v => (v, W.set x v y.2)
  | .pre _ d x, s =>
      (binVal (if d then .sub else .add) (W.get x s) (one (W.get x s))).map fun v => (v, W.set x v s)
  | .post _ d x, s =>
      (binVal (if d then .sub else .add) (W.get x s) (one (W.get x s))).map fun v => (W.get x s, W.set x v s)
  | .not e, s => (run e s).map fun x => (.bool (!truth W x.1), x.2)
  | .ite t c a b, s => (run c s).bind fun x =>
      ((if truth W x.1 then run a x.2 else run b x.2)).map fun y => (at' W t y.1, y.2)
  | .and t items, s => (runAnd items s).map fun x => (at' W t x.1, x.2)
  | .or t items, s => (runOr items s).map fun x => (at' W t x.1, x.2)
  | .copy _ e, s => run e s
/-- Expressions from left to right. -/
def runL : List N → M W (List Val)
  | [], s => some ([], s)
  | e :: r, s => (run e s).bind fun x => (runL r x.2).map fun y => (x.1 :: y.1, y.2)
/-- The first operand that is false, or the last. -/
def runAnd : List N → M W Val
  | [], _ => none
  | [e], s => run e s
  | e :: r, s => (run e s).bind fun x => if truth W x.1 then runAnd r x.2 else some x
/-- The first operand that is true, or the last. -/
def runOr : List N → M W Val
  | [], _ => none
  | [e], s => run e s
  | e :: r, s => (run e s).bind fun x => if truth W x.1 then some x else runOr r x.2
end

/-! ## What the solver hands over -/

/-- One and then the other gives the same as the other and then the one. -/
def Comm {W : World} {α β : Type} (f : M W α) (g : M W β) : Prop :=
  ∀ s, ((f s).bind fun x => (g x.2).map fun y => (x.1, y.1, y.2)) =
    ((g s).bind fun y => (f y.2).map fun x => (x.1, y.1, x.2))

/-- The variable, or a field of it, is only read. -/
def reads : N → Bool
  | .var _ _ => true
  | .fld _ e _ => reads e
  | _ => false

/-- The mask of a call is good enough: an argument that is not in it can be exchanged with each of
those behind it.  So can one that is in it, if it only reads a variable, or if all of those behind it
do (`pointless_seq_bug` is about this). -/
def Seqd (mask : Nat) : Nat → List N → Prop
  | _, [] => True
  | i, a :: rest =>
      ((mask.testBit (i % 32) = false ∨ reads a = true ∨ ∀ b ∈ rest, reads b = true) →
        ∀ b ∈ rest, Comm (run W a) (run W b)) ∧ Seqd mask (i + 1) rest

/-- The type of integers. -/
def isNum (t : Ty) : Prop := t = .u8 ∨ t = .u32

/-- The type of the result of an operator on integers. -/
def opTy : BOp → Ty → Ty
  | .add, t | .sub, t | .mul, t => t
  | _, _ => .bool

/-- The type of the last of a list. -/
def lastTy (t : Ty) (l : List N) : Prop := ∀ x, l.getLast? = some x → x.ty = t

mutual
/-- The expression has the types it says it has, and its calls have masks that are good enough.  A `&&`
among the operands of an `||` that is not a proposition only has to be of the type in its last
operand. -/
def Typed : N → Prop
  | .var t x => t = W.vty x
  | .num t _ => isNum t
  | .flag _ => True
  | .fld t e f => Typed e ∧ t = W.fty f ∧ prim e.ty = false
  | .call t f mask args => TypedL args ∧ t = W.rty f ∧ Seqd W mask 0 args
  | .un t o e => Typed e ∧ (if prim e.ty then isNum e.ty ∧ t = e.ty else t = W.uty o)
  | .bin t o mask a b => Typed a ∧ Typed b ∧ Seqd W mask 0 [a, b] ∧
      (if prim a.ty then isNum a.ty ∧ b.ty = a.ty ∧ t = opTy o a.ty else t = W.bty o)
  | .asg t o x e => Typed e ∧ t = W.vty x ∧ e.ty = t ∧ (o ≠ .set → isNum t)
  | .pre t _ x | .post t _ x => t = W.vty x ∧ isNum t
  | .not e => Typed e
  | .ite t c a b => Typed c ∧ Typed a ∧ Typed b ∧ (t ≠ .bool → a.ty = t ∧ b.ty = t)
  | .and t items => 2 ≤ items.length ∧ TypedL items ∧ (t ≠ .bool → ∀ x ∈ items, x.ty = t)
  | .or t items => 2 ≤ items.length ∧ (if t = .bool then TypedL items else TypedOr t items)
  | .copy t e => Typed e ∧ e.ty = t
/-- All of them. -/
def TypedL : List N → Prop
  | [] => True
  | e :: r => Typed e ∧ TypedL r
/-- The operands of an `||` of the type. -/
def TypedOr (t : Ty) : List N → Prop
  | [] => True
  | [x] => Typed x ∧ x.ty = t
  | .and ta its :: y :: r => (ta ≠ .bool ∧ 2 ≤ its.length ∧ TypedL its ∧ lastTy t its) ∧ TypedOr t (y :: r)
  | x :: y :: r => (Typed x ∧ x.ty = t) ∧ TypedOr t (y :: r)
end

/-! ## C++ -/

/-- A value of a C++ expression: one of the language, or an `int`. -/
inductive CVal where
  | v (a : Val)
  | int (i : Int)
deriving DecidableEq, Repr

/-- Is the value true? -/
def ctruth : CVal → Bool
  | .v a => truth W a
  | .int i => i != 0

/-- An operand after the integral promotions: an `int` or an `unsigned int`. -/
inductive Arith where
  | i (n : Int)
  | u (n : BitVec 32)

/-- The integral promotions: everything smaller than an `int` becomes one. -/
def promote : CVal → Option Arith
  | .v (.bool b) => some (.i (if b then 1 else 0))
  | .v (.u8 n) => some (.i n.toNat)
  | .v (.u32 n) => some (.u n)
  | .v (.obj _ _) => none
  | .int i => some (.i i)

/-- A result: an `int` that does not fit is undefined behaviour. -/
def result : Arith → Option CVal
  | .i n => if -2147483648 ≤ n ∧ n ≤ 2147483647 then some (.int n) else none
  | .u n => some (.v (.u32 n))

/-- To `unsigned int`. -/
def Arith.toU : Arith → BitVec 32
  | .i n => BitVec.ofInt 32 n
  | .u n => n

/-- `+ - ~` on integers. -/
def cUnInt (o : Op) (a : Arith) : Option CVal :=
  match o, a with
  | .plus, a => result a
  | .minus, .i n => result (.i (-n))
  | .minus, .u n => result (.u (-n))
  | .tilde, .i n => result (.i (-n - 1))
  | .tilde, .u n => result (.u (~~~n))
  | _, _ => none

/-- An `int` if both are, else an `unsigned int`. -/
def arith2 (f : Int → Int → Int) (g : BitVec 32 → BitVec 32 → BitVec 32) (a b : Arith) : Option CVal :=
  match a, b with
  | .i x, .i y => result (.i (f x y))
  | a, b => result (.u (g a.toU b.toU))

/-- Compare as `int`s if both are, else as `unsigned int`s. -/
def comp2 (f : Int → Int → Bool) (a b : Arith) : Option CVal :=
  match a, b with
  | .i x, .i y => some (.v (.bool (f x y)))
  | a, b => some (.v (.bool (f a.toU.toNat b.toU.toNat)))

/-- The binary operators on integers. -/
def cBinInt (o : Op) (a b : Arith) : Option CVal :=
  match o with
  | .plus => arith2 (· + ·) (· + ·) a b
  | .minus => arith2 (· - ·) (· - ·) a b
  | .star => arith2 (· * ·) (· * ·) a b
  | .eqeq => comp2 (fun x y => decide (x = y)) a b
  | .ne => comp2 (fun x y => decide (x ≠ y)) a b
  | .lt => comp2 (fun x y => decide (x < y)) a b
  | .le => comp2 (fun x y => decide (x ≤ y)) a b
  | .gt => comp2 (fun x y => decide (x > y)) a b
  | .ge => comp2 (fun x y => decide (x ≥ y)) a b
  | _ => none

/-- Conversion to a type. -/
def conv (t : Ty) (c : CVal) : Option Val :=
  match t with
  | .bool => some (.bool (ctruth W c))
  | .u8 => (promote c).map fun a => .u8 (match a with | .i n => BitVec.ofInt 8 n | .u n => n.setWidth 8)
  | .u32 => (promote c).map fun a => .u32 a.toU
  | .obj b => match c with | .v (.obj b' n) => if b = b' then some (.obj b' n) else none | _ => none

/-- The operator of the language an overloaded operator was. -/
def uopOf : Op → Option UOp
  | .plus => some .pos | .minus => some .neg | .tilde => some .compl | _ => none

def bopOf : Op → Option BOp
  | .plus => some .add | .minus => some .sub | .star => some .mul | .eqeq => some .eq | .ne => some .ne
  | .lt => some .lt | .le => some .le | .gt => some .gt | .ge => some .ge | _ => none

/-- The state of a C++ function: the world, and the temporaries. -/
abbrev St := W.σ × (Nat → CVal)

/-- A way an evaluation can go: it does not come back, or it gives a value and a state. -/
abbrev Res (α : Type) := Option (α × St W)

/-- All the ways an evaluation can go. -/
abbrev D (α : Type) := St W → Res W α → Prop

variable {W}

/-- A value. -/
def D.ret {α : Type} (a : α) : D W α := fun s r => r = some (a, s)

/-- One after the other. -/
def D.seq {α β : Type} (d : D W α) (f : α → D W β) : D W β := fun s r =>
  ∃ r1, d s r1 ∧ match r1 with
    | none => r = none
    | some x => f x.1 x.2 r

/-- Undefined or ill-formed: anything can happen. -/
def D.bad {α : Type} : D W α := fun _ _ => True

/-- If there is a value. -/
def D.opt {α : Type} (a : Option α) : D W α := match a with | some a => D.ret a | none => D.bad

/-- Something done to the world. -/
def D.act {α : Type} (f : M W α) : D W α := fun s r => r = (f s.1).map fun x => (x.1, (x.2, s.2))

/-- The evaluations with the given numbers, in the order of the numbers; the values keep their
number. -/
def inOrder (ds : List (D W CVal)) : List Nat → D W (List (Nat × CVal))
  | [] => D.ret []
  | i :: r => D.seq (ds.getD i D.bad) fun v => D.seq (inOrder ds r) fun vs => D.ret ((i, v) :: vs)

/-- The values at their places. -/
def place (n : Nat) (vs : List (Nat × CVal)) : List CVal :=
  (List.range n).map fun i => (vs.lookup i).getD (.int 0)

/-- The evaluations in any order: all of them, once each. -/
def anyOrder (ds : List (D W CVal)) : D W (List CVal) := fun s r =>
  ∃ order : List Nat, order.Perm (List.range ds.length) ∧
    D.seq (inOrder ds order) (fun vs => D.ret (place ds.length vs)) s r

/-- A value of the language, as arguments of functions and operators of structs are. -/
def plain : CVal → Option Val
  | .v a => some a
  | .int _ => none

def plains : List CVal → Option (List Val)
  | [] => some []
  | c :: r => (plain c).bind fun a => (plains r).map (a :: ·)

variable (W) in
/-- `o a` for the operators `+ - ~ !`. -/
def cUn (o : Op) (c : CVal) : D W CVal :=
  if o = .bang then D.ret (.v (.bool (!ctruth W c)))
  else
    match c with
    | .v (.obj b n) => match uopOf o with
        | some u => D.seq (D.act (W.unop u (.obj b n))) fun v => D.ret (.v v)
        | none => D.bad
    | c => D.opt ((promote c).bind (cUnInt o))

variable (W) in
/-- `a o b` for the operators that evaluate both operands. -/
def cBin (o : Op) (a b : CVal) : D W CVal :=
  match a with
  | .v (.obj k n) => match bopOf o, plain b with
      | some o, some b => D.seq (D.act (W.binop o (.obj k n) b)) fun v => D.ret (.v v)
      | _, _ => D.bad
  | a => D.opt ((promote a).bind fun x => (promote b).bind fun y => cBinInt o x y)

variable (W) in
/-- Stores into a variable, converted to its type. -/
def store (x : Nat) (c : CVal) : D W CVal :=
  match conv W (W.vty x) c with
  | some v => D.act fun s => some (.v v, W.set x v s)
  | none => D.bad

/-- Reads a variable. -/
def load (x : Nat) : D W CVal := D.act fun s => some (.v (W.get x s), s)

variable (W) in
/-- The variable and one, added or subtracted. -/
def bump (o : Op) (x : Nat) : D W CVal :=
  D.seq (load x) fun old => D.seq (cBin W (if o = .inc then .plus else .minus) old (.int 1)) fun new => store W x new

mutual
/-- **All the ways a C++ expression can be evaluated.** -/
def den : C → D W CVal
  | .w (.var x) => load x
  | .w (.tmp i) => fun s r => r = some (s.2 i, s)
  | .w (.num k) => D.ret (.v (.u32 (BitVec.ofNat 32 k)))
  | .w .tru => D.ret (.v (.bool true))
  | .w .fals => D.ret (.v (.bool false))
  | .w _ => D.bad
  | .fld e (.fld f) => D.seq (den e) fun c => match c with
      | .v (.obj b n) => D.ret (.v (W.field f (.obj b n)))
      | _ => D.bad
  | .fld _ _ => D.bad
  | .call (.w (.fn f)) args => D.seq (anyOrder (dens args)) fun cs => match plains cs with
      | some vs => D.seq (D.act (W.call f vs)) fun v => D.ret (.v v)
      | none => D.bad
  | .call (.w (.ty t)) args => D.seq (anyOrder (dens args)) fun cs => match cs with
      | [c] => D.seq (D.opt (conv W t c)) fun v => D.ret (.v v)
      | _ => D.bad
  | .call (.w (.mv _)) args => D.seq (anyOrder (dens args)) fun cs => match cs with
      | [c] => D.ret c
      | _ => D.bad
  | .call _ _ => D.bad
  | .un o e =>
      if o = .inc ∨ o = .dec then
        match e with
        | .w (.var x) => bump W o x
        | _ => D.bad
      else D.seq (den e) fun c => cUn W o c
  | .post o e =>
      if o = .inc ∨ o = .dec then
        match e with
        | .w (.var x) => D.seq (load x) fun old => D.seq (bump W o x) fun _ => D.ret old
        | _ => D.bad
      else D.bad
  | .bin o a b =>
      if o = .andand then
        D.seq (den a) fun c => if ctruth W c then D.seq (den b) fun d => D.ret (.v (.bool (ctruth W d)))
          else D.ret (.v (.bool false))
      else if o = .oror then
        D.seq (den a) fun c => if ctruth W c then D.ret (.v (.bool true))
          else D.seq (den b) fun d => D.ret (.v (.bool (ctruth W d)))
      else
        D.seq (anyOrder [den a, den b]) fun cs => match cs with
          | [c, d] => cBin W o c d
          | _ => D.bad
  | .asg o l e =>
      D.seq (den e) fun c =>
        match l with
        | .w (.tmp i) => if o = .asg then fun s r => r = some (c, (s.1, fun j => if j = i then c else s.2 j)) else D.bad
        | .w (.var x) =>
            if o = .asg then store W x c
            else if o = .addEq then D.seq (load x) fun old => D.seq (cBin W .plus old c) fun v => store W x v
            else if o = .subEq then D.seq (load x) fun old => D.seq (cBin W .minus old c) fun v => store W x v
            else D.bad
        | _ => D.bad
  | .cond c a b => D.seq (den c) fun x => if ctruth W x then den a else den b
  | .comma a b => D.seq (den a) fun _ => den b
/-- The same for each of a list. -/
def dens : List C → List (D W CVal)
  | [] => []
  | c :: r => den c :: dens r
end

end Verif.CgMean
