import Verif.CgText

/-!
# C92: what the emitter writes for an expression

Models `cgNode` and the functions it calls on solved expressions
(src/codegen.fu 2313-2316, 2318-2700, 2954-3175, 3454-3496, 3543-3732, 3746-3815).

Simplifications: the nodes are variables, integer and boolean literals, fields, calls of functions,
prefix operators, binary operators, assignments to variables, `++`/`--` of variables, `!`, `if`,
`&&`, `||` and copies.  All values are held by value: the types are `bool`, an 8 and a 32 bit
unsigned integer, structs and arrays; references, which make temporaries pointers, are left out, and
so are arguments of no size, `never`, blocks, moves, type conversions, arguments passed by mutable
reference (all arguments are evaluated from left to right, `argsForward`, src/module.fu 427-451),
global and hoisted variables.  A name is one symbol; the emitter's temporaries are a kind of name of
their own.
-/

namespace Verif.CgExpr

open Verif.CgText

/-- prefix operators that are not `++`, `--`, `!` (src/prelude.fu 6-7, 54; lib/vec.fu 41-43). -/
inductive UOp where | pos | neg | compl
deriving DecidableEq, Repr

/-- binary operators that do not assign (src/prelude.fu 9-12, 33-36). -/
inductive BOp where | add | sub | mul | eq | ne | lt | le | gt | ge
deriving DecidableEq, Repr

/-- operators that assign (src/prelude.fu 24-26, 214). -/
inductive AOp where | set | add | sub
deriving DecidableEq, Repr

/-- A solved node, with its type.  The mask of a call is `node.helpers.index`, the arguments the
solver wants evaluated in sequence. -/
inductive N where
  | var (t : Ty) (x : Nat)
  | num (t : Ty) (k : Nat)
  | flag (b : Bool)
  | fld (t : Ty) (e : N) (f : Nat)
  | call (t : Ty) (f : Nat) (mask : Nat) (args : List N)
  | un (t : Ty) (o : UOp) (e : N)
  | bin (t : Ty) (o : BOp) (mask : Nat) (a b : N)
  | asg (t : Ty) (o : AOp) (x : Nat) (e : N)
  | pre (t : Ty) (dec : Bool) (x : Nat)
  | post (t : Ty) (dec : Bool) (x : Nat)
  | not (e : N)
  | ite (t : Ty) (c a b : N)
  | and (t : Ty) (items : List N)
  | or (t : Ty) (items : List N)
  | copy (t : Ty) (e : N)
deriving Repr

/-- `node.type`. -/
def N.ty : N → Ty
  | .var t _ | .num t _ | .fld t _ _ | .call t _ _ _ | .un t _ _ | .bin t _ _ _ _ | .asg t _ _ _
  | .pre t _ _ | .post t _ _ | .ite t _ _ _ | .and t _ | .or t _ | .copy t _ => t
  | .flag _ | .not _ => .bool

/-- `isPassByValue` (src/quals.fu 58-60), also `is_primitive`. -/
def prim : Ty → Bool
  | .obj _ => false
  | _ => true

/-- The flags of `Mode` that matter to an expression (src/codegen.fu 17-48). -/
structure Mode where
  /-- `M_STMT` -/
  stmt : Bool := false
  /-- `M_PARENS`: whoever asks puts the parentheses. -/
  parens : Bool := false
  /-- `M_RETURN` -/
  ret : Bool := false
  /-- `M_ABBREVIATE_ALL_COPIES` -/
  abAll : Bool := false
  /-- `M_ABBREVIATE_NONVEC_COPIES` -/
  abNonvec : Bool := false
  /-- `M_ABBREVIATE_PASSBYVAL_COPIES` -/
  abByval : Bool := false
deriving DecidableEq, Repr

/-- `mode & Mode_PASSTHROUGH` (src/codegen.fu 48). -/
def Mode.pass (m : Mode) : Mode := { abAll := m.abAll, abNonvec := m.abNonvec, abByval := m.abByval }

abbrev Text := List Piece

/-- A name. -/
def nm (a : Word) : Text := [.w a]
/-- A token. -/
def op (o : Op) : Text := [.op o]
/-- A token between spaces. -/
def sop (o : Op) : Text := [.sp, .op o, .sp]

/-- `"(" ~ s ~ ")"` -/
def paren (s : Text) : Text := op .lpar ++ s ++ op .rpar

/-- `typeAnnotBase(type) ~ "(" ~ s ~ ")"` -/
def cast (t : Ty) (s : Text) : Text := nm (.ty t) ++ paren s

/-- Does `cgCopy` leave the copy out?  (src/codegen.fu 3719-3727) -/
def skipsCopy (m : Mode) : Ty → Bool
  | .obj vec => m.abAll || m.abNonvec && !vec
  | _ => m.abAll || m.abNonvec || m.abByval

/-- `cgCopy` (src/codegen.fu 3718-3729). -/
def cgCopy (m : Mode) (t : Ty) (s : Text) : Text := if skipsCopy m t then s else cast t s

/-- `cgCopyOrMove` of a copy (src/codegen.fu 3543-3553, 3683): a copy returned as it is if the type is
trivial; structs and arrays are taken not to be. -/
def cgCopyNode (m : Mode) (t : Ty) (s : Text) : Text := if m.ret && prim t then s else cgCopy m t s

/-- `cgMove` of a value (src/codegen.fu 3693-3710). -/
def cgMove (m : Mode) (t : Ty) (s : Text) : Text := if prim t then cgCopy m t s else nm (.mv t) ++ paren s

/-- `TEMPVAR_consume` (src/codegen.fu 3790-3799). -/
def consume (m : Mode) (t : Ty) (id : Nat) : Text := cgMove m t (nm (.tmp id))

/-- `TEMPVAR_init` (src/codegen.fu 3770-3788). -/
def init (id : Nat) (s : Text) : Text := nm (.tmp id) ++ sop .asg ++ s

/-- `unpromote` (src/codegen.fu 2495-2512): 8 bit integers are cast back after an operation of the
language, `native`. -/
def unpromote (native : Bool) (t : Ty) (s : Text) : Text :=
  if native && t = .u8 then cast t s else s

/-- The C++ operator of a prefix operator (`valid_operator`). -/
def UOp.op : UOp → Op
  | .pos => .plus
  | .neg => .minus
  | .compl => .tilde

/-- The C++ operator of a binary operator. -/
def BOp.op : BOp → Op
  | .add => .plus | .sub => .minus | .mul => .star
  | .eq => .eqeq | .ne => .ne | .lt => .lt | .le => .le | .gt => .gt | .ge => .ge

/-- The C++ operator of an assignment. -/
def AOp.op : AOp → Op
  | .set => .asg | .add => .addEq | .sub => .subEq

/-- `++` or `--` -/
def incOp (dec : Bool) : Op := if dec then .dec else .inc

/-- `binSkipParens` (src/codegen.fu 2289-2311). -/
def skipParens (m : Mode) : BOp → Bool
  | .le | .ge => m.stmt
  | _ => m.stmt || m.parens

/-- `binSkipParens` of an assignment. -/
def skipParensAsg (m : Mode) : Bool := m.stmt

/-- `isFieldChain` (src/codegen.fu 3125-3137). -/
def chain : N → Bool
  | .var _ _ => true
  | .fld _ e _ => chain e
  | _ => false

/-- The text of a field chain, in every mode (src/codegen.fu 2657-2683). -/
def chainText : N → Text
  | .var _ x => nm (.var x)
  | .fld _ e f => chainText e ++ op .dot ++ nm (.fld f)
  | _ => []

/-- Is the argument put into a temporary?  (src/codegen.fu 2400-2443.)  The bit of the mask has to be
set; "pointless" sequencing is skipped: of field chains, and where only field chains follow.
`MUSTSEQ_mask &~ MUSTSEQ_bit < MUSTSEQ_mask` compares signed integers: it is false of bit 31.
(`isPointlessMustSeq` makes an exception for parameters that are array views, left out.) -/
def held (mask i : Nat) (a : N) (rest : List N) : Bool :=
  mask.testBit (i % 32) && !(chain a || (i % 32 != 31 && rest.all chain))

/-- `arr.join(", ")` -/
def commaJoin : List Text → Text
  | [] => []
  | [s] => s
  | s :: y :: r => s ++ [.op .comma, .sp] ++ commaJoin (y :: r)

/-- `ooeWrap` (src/codegen.fu 2459-2464). -/
def ooeWrap (hdr : List Text) (s : Text) : Text :=
  if hdr.isEmpty then s else paren (commaJoin hdr ++ [.op .comma, .sp] ++ s)

/-- `cond ~ " ? " ~ cons ~ " : "` -/
def test (c s : Text) : Text := c ++ sop .quest ++ s ++ sop .colon

/-- What `via` writes, the temporary it leaves (if any), the next free number; `s` is
`cgNode(node)`, `k` the next free number after it (src/codegen.fu 3078-3123). -/
def via (m : Mode) (t : Ty) (tv : Option Nat) (x : N) (s : Text) (k : Nat) : Text × Option Nat × Nat :=
  if chain x then (test s s, tv, k)
  else
    match x with
    | .copy t' e =>
        if chain e then (test (chainText e) (cgCopyNode m t' (chainText e)), tv, k)
        else viaTemp k
    | _ => viaTemp k
where
  /-- `via` with a temporary (src/codegen.fu 3111-3123). -/
  viaTemp (k : Nat) : Text × Option Nat × Nat :=
    let id := tv.getD k
    (test (paren (init id s)) (consume m t id), some id, if tv.isSome then k else k + 1)

/-- The parentheses around `&&` and `||` (src/codegen.fu 3003, 3022). -/
def outer (m : Mode) (s : Text) : Text := if m.parens then s else paren s

/-- `"!!(" ~ s ~ ")"` for a branch that is not a proposition (src/codegen.fu 2977-2981). -/
def asBool (t tb : Ty) (s : Text) : Text :=
  if t = .bool && tb ≠ .bool then op .bang ++ op .bang ++ paren s else s

/-- The mode of an argument (src/codegen.fu 2358-2366). -/
def argMode : Mode := { abByval := true }

mutual
/-- `cgNode` (src/codegen.fu 3454-3496): the text, and the next free temporary. -/
def cg (m : Mode) : N → Nat → Text × Nat
  | .var _ x, k => (nm (.var x), k)
  -- `cgArithmeticLiteral` (2823-2886)
  | .num t n, k => ((if t = .u8 then cast t (nm (.num n)) else nm (.num n)), k)
  -- `cgBoolLiteral` (2805-2811)
  | .flag b, k => (nm (if b then .tru else .fals), k)
  | .fld _ e f, k =>
      let r := cg argMode e k
      (r.1 ++ op .dot ++ nm (.fld f), r.2)
  -- `emitFunctionCall` (2541-2580)
  | .call _ f mask args, k =>
      let r := cgArgs mask 0 args k
      (ooeWrap r.1 (nm (.fn f) ++ paren (commaJoin r.2.1)), r.2.2)
  -- `emitPrefixOp` (2519-2522)
  | .un t o e, k =>
      let r := cg argMode e k
      (unpromote (prim e.ty) t (op o.op ++ r.1), r.2)
  -- `emitBinaryOp` (2524-2532)
  | .bin t o mask a b, k =>
      let ra := cg argMode a k
      let ha := held mask 0 a [b]
      let rb := cg argMode b (if ha then ra.2 + 1 else ra.2)
      let hb := held mask 1 b []
      let hdr := (if ha then [init ra.2 ra.1] else []) ++ (if hb then [init rb.2 rb.1] else [])
      let s := (if ha then consume argMode a.ty ra.2 else ra.1) ++ sop o.op ++
                 (if hb then consume argMode b.ty rb.2 else rb.1)
      (if skipParens m o && hdr.isEmpty then s
       else ooeWrap hdr (unpromote (prim a.ty) t (paren s)), if hb then rb.2 + 1 else rb.2)
  -- `emitBinaryOp` of an assignment; the value comes before the variable, which is a field chain, so
  -- neither is ever put into a temporary
  | .asg _ o x e, k =>
      let r := cg { abAll := true } e k
      let s := nm (.var x) ++ sop o.op ++ r.1
      (if skipParensAsg m then s else paren s, r.2)
  -- `emitPrefixOp`: the result is a reference, which is not cast
  | .pre _ d x, k => (op (incOp d) ++ nm (.var x), k)
  -- `emitPostfixOp` (2514-2517)
  | .post t d x, k => (unpromote true t (nm (.var x) ++ op (incOp d)), k)
  -- `cgNot` (2313-2316)
  | .not e, k =>
      let r := cg {} e k
      (op .bang ++ r.1, r.2)
  -- `cgIf` as an expression (2954-2984)
  | .ite t c a b, k =>
      let rc := cg {} c k
      let ra := cg m.pass a rc.2
      let rb := cg m.pass b ra.2
      (paren (rc.1 ++ sop .quest ++ asBool t a.ty ra.1 ++ sop .colon ++ asBool t b.ty rb.1), rb.2)
  -- `cgAnd` as an expression (3003-3024)
  | .and t items, k =>
      let r := if t = .bool then cgConcat { parens := items.length == 1 } .andand items k
               else cgAndV t none items k
      (outer m r.1, r.2)
  -- `cgOr` as an expression (3041-3076)
  | .or t items, k =>
      let r := if t = .bool then cgConcat { parens := items.length == 1 } .oror items k
               else cgOrV m.pass t none items k
      (outer m r.1, r.2)
  -- `cgCopyOrMove`
  | .copy t e, k =>
      let r := cg {} e k
      (cgCopyNode m t r.1, r.2)

/-- The arguments of a call: what goes before, what stays (src/codegen.fu 2347-2457). -/
def cgArgs (mask : Nat) : Nat → List N → Nat → List Text × List Text × Nat
  | _, [], k => ([], [], k)
  | i, a :: rest, k =>
      let r := cg argMode a k
      if held mask i a rest then
        let q := cgArgs mask (i + 1) rest (r.2 + 1)
        (init r.2 r.1 :: q.1, consume argMode a.ty r.2 :: q.2.1, q.2.2)
      else
        let q := cgArgs mask (i + 1) rest r.2
        (q.1, r.1 :: q.2.1, q.2.2)

/-- `cgAndOr_concat` (src/codegen.fu 3152-3172). -/
def cgConcat (m : Mode) (o : Op) : List N → Nat → Text × Nat
  | [], k => ([], k)
  | [x], k => cg m x k
  | x :: y :: r, k =>
      let p := cg m x k
      let q := cgConcat m o (y :: r) p.2
      (p.1 ++ sop o ++ q.1, q.2)

/-- The loop of `cgAnd` (src/codegen.fu 3012-3019). -/
def cgAndV (t : Ty) : Option Nat → List N → Nat → Text × Nat
  | _, [], k => ([], k)
  | _, [x], k => cg {} x k
  | tv, x :: y :: r, k =>
      let p := cg {} x k
      let v := via {} t tv x p.1 p.2
      let q := cgAndV t v.2.1 (y :: r) v.2.2
      (op .bang ++ v.1 ++ q.1, q.2)

/-- The loop of `cgOr` (src/codegen.fu 3050-3071). -/
def cgOrV (m : Mode) (t : Ty) : Option Nat → List N → Nat → Text × Nat
  | _, [], k => ([], k)
  | _, [x], k => cg m x k
  | tv, .and _ its :: y :: r, k =>
      let v := cgAndVia m t tv its k
      let q := cgOrV m t v.2.1 (y :: r) v.2.2
      (v.1 ++ q.1, q.2)
  | tv, x :: y :: r, k =>
      let p := cg {} x k
      let v := via m t tv x p.1 p.2
      let q := cgOrV m t v.2.1 (y :: r) v.2.2
      (v.1 ++ q.1, q.2)

/-- `a && b || c`: all the operands of the `&&` but the last are tested, the last goes through `via`
(src/codegen.fu 3055-3067).  An `&&` has at least two operands. -/
def cgAndVia (m : Mode) (t : Ty) (tv : Option Nat) : List N → Nat → Text × Option Nat × Nat
  | [], k => ([], tv, k)
  | [x], k =>
      let r := cg {} x k
      via m t tv x r.1 r.2
  | x :: y :: r, k =>
      let p := cg {} x k
      let v := cgAndVia m t tv (y :: r) p.2
      (p.1 ++ sop .andand ++ v.1, v.2)
end

end Verif.CgExpr
