import Verif.CgExpr

/-!
# C93: what the emitter writes for the statements of a function

Models `cgStatements`, `blockWrapSubstatement`, both `cgBlock`, `cgJump`, `cgIf`, `cgAnd`, `cgOr` in
statement position, `cgLoop` and the statement half of `cgNodes` (src/codegen.fu 954-968, 998-1213,
1581-1587, 2036-2127, 2954-2984, 2992-3002, 3031-3040, 3191-3317, 3817-3856).

Simplifications: an expression is written by `cg` (C92) and its text is one token here; white space and
the file positions are left out; declarations are assignments, and the declarations of the emitter's own
temporaries are a token without a name; there are no `try`, `defer` and `pragma` statements, no
statements inside expressions (`__extension__ ({…})`), and no value of type `never`.
-/

namespace Verif.CgStmt

open Verif.CgText Verif.CgExpr

/-- The name of a block (`BL_n`) or of a loop (`LL_n`) in the C++ text; the numbers are
`_current_fn.num_labels` (src/codegen.fu 1126, 3278). -/
inductive Lab where
  | bl (n : Nat)
  | ll (n : Nat)
deriving DecidableEq, Repr

/-- The number in the name. -/
def Lab.num : Lab → Nat
  | .bl n | .ll n => n

/-- A piece of the text of a function. -/
inductive Tk where
  /-- an expression -/
  | x (t : List Sym)
  /-- the declaration of a temporary -/
  | decl
  | semi | lbr | rbr | lp | rp
  | kif | kelse | kwhile | kdo | kfor | kbreak | kcont | kret
  | goto (g : Lab)
  | label (g : Lab)
deriving DecidableEq, Repr

/-- A solved statement.  Blocks and loops are known by a number (`node.helpers`, src/flags.fu 25-60),
which a jump out of them carries. -/
inductive S where
  | expr (e : N)
  | empty
  | ite (c : N) (a b : S)
  /-- `c && … && s`: the operands but the last are conditions -/
  | and (cs : List N) (s : S)
  /-- `c || … || s` -/
  | or (cs : List N) (s : S)
  | block (h : Option Nat) (items : List S)
  | loop (h : Nat) (init cond : Option N) (body : S) (post : List N) (pcond : Option N)
  /-- a loop with `on enter … then`; `hp` is the number of the block that is entered -/
  | enter (h : Nat) (init cond : Option N) (hp : Option Nat) (pre : List S) (body : S) (post : List N) (pcond : Option N)
  | jump (h : Nat) (e : Option N)
deriving Repr

/-- The blocks around, and what `return`, `break` and `continue` leave (`cg_CurrentFn`,
src/codegen.fu 158-181). -/
structure Env where
  /-- the innermost first -/
  blocks : List (Lab × Option Nat) := []
  ret : Nat
  brk : Option Nat := none
  cont : Option Nat := none

/-- What is written for a statement: the text, the temporaries to be declared before it, the number of
lines (for a list of statements), the next label, the next temporary. -/
structure R where
  t : List Tk
  d : Nat
  n : Nat
  l : Nat
  k : Nat

/-- `findBlock` of `cgJump` (src/codegen.fu 2078-2092). -/
def find (bs : List (Lab × Option Nat)) (h : Nat) : Option Lab :=
  match bs with
  | [] => none
  | b :: r => if b.2 = some h then some b.1 else find r h

/-- The name; the code stops with a BUG if there is none. -/
def Env.name (env : Env) (h : Nat) : Lab := (find env.blocks h).getD (.bl 0)

/-- `cgNode` of an expression, as one token. -/
def ex (m : Mode) (e : N) (k : Nat) : Tk := .x (text (cg m e k).1)

/-- `cgNode` of an expression that may not be there. -/
def exO (m : Mode) (e : Option N) (k : Nat) : List Tk :=
  match e with
  | none => []
  | some e => [ex m e k]

/-- The next temporary after it. -/
def nextO (m : Mode) (e : Option N) (k : Nat) : Nat :=
  match e with
  | none => k
  | some e => (cg m e k).2

/-- The texts of expressions, one after the other. -/
def texts (m : Mode) : List N → Nat → List Text
  | [], _ => []
  | e :: r, k => (cg m e k).1 :: texts m r (cg m e k).2

def nexts (m : Mode) : List N → Nat → Nat
  | [], k => k
  | e :: r, k => nexts m r (cg m e k).2

/-- `cgComma` (src/codegen.fu 970-993) of at least one. -/
def comma (ts : List Text) : Text :=
  match ts with
  | [t] => t
  | ts => paren (commaJoin ts)

/-- The statement step of a loop, written as an expression. -/
def postO (post : List N) (k : Nat) : List Tk :=
  if post.isEmpty then [] else [.x (text (comma (texts {} post k)))]

/-- The condition of `do … while`: the step goes before it (src/codegen.fu 3303-3305). -/
def stepCond (post : List N) (k : Nat) (c : Text) : List Sym :=
  text (if post.isEmpty then c else comma (texts {} post k) ++ [.op .comma, .sp] ++ c)

/-- The conditions of an `&&` statement (`cgAndOr_concat`, src/codegen.fu 2994-2999, 3152-3171). -/
def conds (o : Op) (cs : List N) (k : Nat) : Text × Nat := cgConcat { parens := cs.length == 1 } o cs k

/-- A line is closed by `;` unless it ends in one; nothing is written for an empty line
(src/codegen.fu 960-967). -/
def term (t : List Tk) : List Tk :=
  if t.isEmpty then [] else if t.getLast? = some .semi then t else t ++ [.semi]

/-- The lines of a statement: its temporaries are declared first (src/codegen.fu 3843-3852). -/
def row (d : Nat) (t : List Tk) : List Tk := (List.replicate d [Tk.decl, .semi]).flatten ++ term t

/-- The helper of a block (src/codegen.fu 1006-1007). -/
def helper : S → Option Nat
  | .block h _ => h
  | _ => none

/-- How many statements in the block (src/codegen.fu 1006). -/
def width : S → Nat
  | .block _ items => items.length
  | _ => 1

/-- Statements that follow `else` without a block of their own (src/codegen.fu 2965-2968). -/
def isIf : S → Bool
  | .ite _ _ _ | .and _ _ => true
  | _ => false

variable (odd : List Sym → Bool)

/-- `src.has('{') || src.has("if")` (src/codegen.fu 1200): there may be one in the text of an
expression, too. -/
def curly (t : List Tk) : Bool :=
  t.any fun
    | .lbr | .kif => true
    | .x t => odd t
    | _ => false

/-- The end of `cgBlock` (src/codegen.fu 1185-1211).  `opt` is `M_OPT_CURLIES`, `len` the number of
statements, `l` the number of the block. -/
def wrap (opt : Bool) (len l : Nat) (r : R) : List Tk :=
  if opt && len == 1 && r.n == 1 && !r.t.contains (.goto (.bl l)) && !curly odd r.t then r.t
  else if r.t.contains (.goto (.bl l)) then
    [.lbr, .lbr] ++ r.t ++ [.rbr, .label (.bl l), .semi, .rbr]
  else [.lbr] ++ r.t ++ [.rbr]

/-- One more block around (src/codegen.fu 1171-1177). -/
def Env.push (env : Env) (g : Lab) (h : Option Nat) : Env := { env with blocks := (g, h) :: env.blocks }

/-- The end of `cgLoop` (src/codegen.fu 3292-3316), given the text of the body. -/
def loopText (l : Nat) (init cond : Option N) (post : List N) (pcond : Option N) (k : Nat) (body : List Tk) : List Tk :=
  let k1 := nextO { stmt := true } init k
  let k2 := nextO { parens := true } cond k1
  let k3 := nexts {} post k2
  let lbl := if body.contains (.goto (.ll l)) then [Tk.label (.ll l), .semi] else []
  match pcond with
  | some c => [.kdo] ++ body ++ [.kwhile, .lp, .x (stepCond post k2 (cg {} c k3).1), .rp] ++ lbl
  | none =>
      if init.isSome || !post.isEmpty || !cond.isSome then
        [.kfor, .lp] ++ exO { stmt := true } init k ++ [.semi] ++ exO { parens := true } cond k1 ++ [.semi] ++
          postO post k2 ++ [.rp] ++ body ++ lbl
      else [.kwhile, .lp] ++ exO { parens := true } cond k1 ++ [.rp] ++ body ++ lbl

/-- The next temporary after the header of a loop. -/
def loopNext (init cond : Option N) (post : List N) (pcond : Option N) (k : Nat) : Nat :=
  nextO {} pcond (nexts {} post (nextO { parens := true } cond (nextO { stmt := true } init k)))

mutual
/-- `cgNode(node, M_STMT)` (src/codegen.fu 3454-3496). -/
def line (env : Env) : S → Nat → Nat → R
  | .expr e, l, k => ⟨[ex { stmt := true } e k], (cg { stmt := true } e k).2 - k, 0, l, (cg { stmt := true } e k).2⟩
  | .empty, l, k => ⟨[], 0, 0, l, k⟩
  -- `cgIf` (2954-2973)
  | .ite c a b, l, k =>
      let kc := (cg { parens := true } c k).2
      let ra := sub env false a l kc
      let rb := if isIf b then line env b ra.l ra.k else sub env false b ra.l ra.k
      ⟨[.kif, .lp, ex { parens := true } c k, .rp] ++ ra.t ++ (if rb.t.isEmpty then [] else .kelse :: rb.t),
        (kc - k) + rb.d, 0, rb.l, rb.k⟩
  -- `cgAnd` (2994-3001)
  | .and cs s, l, k =>
      let c := conds .andand cs k
      let r := sub env false s l c.2
      ⟨[.kif, .lp, .x (text c.1), .rp] ++ r.t, c.2 - k, 0, r.l, r.k⟩
  -- `cgOr` (3033-3040)
  | .or cs s, l, k =>
      let c := conds .oror cs k
      let r := sub env false s l c.2
      ⟨[.kif, .lp, .x (text (op .bang ++ paren c.1)), .rp] ++ r.t, c.2 - k, 0, r.l, r.k⟩
  -- `cgBlock` without `M_OPT_CURLIES`
  | .block h items, l, k =>
      let r := lines (env.push (.bl l) h) items (l + 1) k
      ⟨wrap odd false items.length l r, 0, 0, r.l, r.k⟩
  -- `cgLoop` (3250-3317)
  | .loop h init cond body post pcond, l, k =>
      let kb := loopNext init cond post pcond k
      let r := sub { env.push (.ll l) (some h) with brk := some h, cont := none } true body (l + 1) kb
      ⟨loopText l init cond post pcond k r.t, kb - k, 0, r.l, r.k⟩
  -- rewritten before (`flat`)
  | .enter _ _ _ _ _ _ _ _, l, k => ⟨[], 0, 0, l, k⟩
  -- `cgJump` (2072-2127)
  | .jump h none, l, k =>
      ⟨[if h = env.ret then .kret else if env.brk = some h then .kbreak else if env.cont = some h then .kcont
        else .goto (env.name h)], 0, 0, l, k⟩
  | .jump h (some e), l, k =>
      if h = env.ret then
        ⟨[.kret, ex { parens := true, ret := true, abByval := true } e k],
          (cg { parens := true, ret := true, abByval := true } e k).2 - k, 0, l,
          (cg { parens := true, ret := true, abByval := true } e k).2⟩
      else
        ⟨[.lbr, ex { stmt := true } e k, .semi, .goto (env.name h), .semi, .rbr],
          (cg { stmt := true } e k).2 - k, 0, l, (cg { stmt := true } e k).2⟩
termination_by s => 2 * sizeOf s
decreasing_by all_goals (simp_wf; first | done | omega)

/-- `blockWrapSubstatement`, with `M_LOOP_BODY` for the body of a loop (src/codegen.fu 998-999, 1004-1026,
1094-1097). -/
def sub (env : Env) (loopBody : Bool) : S → Nat → Nat → R
  | .block h items, l, k =>
      let env' := if loopBody then { env with cont := h } else env
      let r := lines (env'.push (.bl l) h) items (l + 1) k
      ⟨wrap odd true items.length l r, 0, 0, r.l, r.k⟩
  | s, l, k =>
      let env' := if loopBody then { env with cont := none } else env
      let a := line (env'.push (.bl l) none) s (l + 1) k
      let r : R := ⟨row a.d a.t, 0, a.d + 1, a.l, a.k⟩
      ⟨wrap odd true 1 l r, 0, 0, r.l, r.k⟩
termination_by s => 2 * sizeOf s + 1
decreasing_by all_goals (simp_wf; first | done | omega)

/-- `cgStatements` and `cgNodes` (src/codegen.fu 954-968, 3829-3855): the temporaries are declared on
lines of their own. -/
def lines (env : Env) : List S → Nat → Nat → R
  | [], l, k => ⟨[], 0, 0, l, k⟩
  | s :: rest, l, k =>
      let a := line env s l k
      let b := lines env rest a.l a.k
      ⟨row a.d a.t ++ b.t, 0, a.d + 1 + b.n, b.l, b.k⟩
termination_by s => 2 * sizeOf s
decreasing_by all_goals (simp_wf; first | done | omega)
end

/-! ## Loops with `on enter` -/

/-- The start of a loop as a statement. -/
def initS (init : Option N) : List S :=
  match init with
  | none => []
  | some e => [.expr e]

/-- A loop with `on enter` (src/codegen.fu 3194-3247). -/
def enterS (h : Nat) (init cond : Option N) (hp : Option Nat) (pre : List S) (body : S) (post : List N) (pcond : Option N) : S :=
  match cond with
  | none => .block hp (initS init ++ (pre ++ [.loop h none none body post pcond]))
  | some c => .block hp (initS init ++ [.and [c] (.block hp (pre ++ [.loop h none none body post (some c)]))])

mutual
/-- The rewriting of all of them; the code does it when it gets to the loop. -/
def flat : S → S
  | .ite c a b => .ite c (flat a) (flat b)
  | .and cs s => .and cs (flat s)
  | .or cs s => .or cs (flat s)
  | .block h items => .block h (flatL items)
  | .loop h init cond body post pcond => .loop h init cond (flat body) post pcond
  | .enter h init cond hp pre body post pcond => enterS h init cond hp (flatL pre) (flat body) post pcond
  | .expr e => .expr e
  | .empty => .empty
  | .jump h e => .jump h e
def flatL : List S → List S
  | [] => []
  | s :: r => flat s :: flatL r
end

/-- The body of a function: a block that `return` leaves (src/codegen.fu 1581-1585). -/
def cgBody (h : Nat) (items : List S) : List Tk :=
  (line odd { ret := h } (.block (some h) (flatL items)) 0 0).t

end Verif.CgStmt
