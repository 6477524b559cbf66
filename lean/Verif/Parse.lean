import Verif.Basic
/-!
# Expressions - src/parser.fu

The part of the parser that reads expressions: literals, names, parentheses, array literals, prefix, postfix and binary
operators, conditionals, type tests and casts, member access, calls and indexing, with positional, named and auto-named
arguments.

Simplifications.  Positions are left out, and with them the warnings about whitespace and indentation; a missing comma,
in the code a warning, is a failure here.  Texts are `String`.  The state is the tokens not yet consumed: `_idx++` drops
the first of them, `_idx--` puts it back.  Not modelled, a failure here: blocks, lambdas, functions and types in
expressions, type parameters, `::` chains and slices (`a[i .. j]`).  `_TODO_FIX_dollarOk` is false: not in a signature.
-/
namespace Verif.Parse
open Verif

/-- src/lexer.fu (`Token`); kinds are the texts the code compares with -/
structure Token where
  kind : String
  value : String
  deriving DecidableEq, Repr

/-- src/flags.fu:99-102 and `F_ARGID_IS_OPTIONAL` -/
structure Flags where
  operator : Bool := false
  dot : Bool := false
  argparens : Bool := false
  named : Bool := false
  optional : Bool := false
  deriving DecidableEq, Repr

/-- `|` on flags -/
def Flags.or (a b : Flags) : Flags :=
  ⟨a.operator || b.operator, a.dot || b.dot, a.argparens || b.argparens, a.named || b.named, a.optional || b.optional⟩

/-- src/module.fu (`Node`): kind, value, flags, whether `PS_PARENS` is among its syntax, items -/
inductive Node where
  | mk (kind value : String) (flags : Flags) (parens : Bool) (items : List Node)

namespace Node
def kind : Node → String | mk k _ _ _ _ => k
def value : Node → String | mk _ v _ _ _ => v
def flags : Node → Flags | mk _ _ f _ _ => f
def parens : Node → Bool | mk _ _ _ p _ => p
def items : Node → List Node | mk _ _ _ _ i => i
end Node

/-- how a step ends: with a result, with an error to the user, or - only in the model - out of fuel -/
inductive R (α : Type) where
  | ok (a : α)
  | fail
  | fuel

def R.bind {α β : Type} : R α → (α → R β) → R β
  | ok a, f => f a
  | fail, _ => fail
  | fuel, _ => fuel

/-- an optional result -/
def R.of {α : Type} : Option α → R α
  | some a => ok a
  | none => fail

/-! ### the operator table -/

/-- src/parser.fu:21-22 (`P_RESET`, `P_PREFIX_UNARY`) -/
def P_RESET : Nat := 1000
@[inherit_doc P_RESET] def P_PREFIX_UNARY : Nat := 1

/-- src/parser.fu:24 -/
def PREFIX : List String := ["++", "+", "--", "-", "!", "~", "?", "*", "&", "-%"]
/-- src/parser.fu:25 -/
def POSTFIX : List String := ["++", "--", "[]", "[..]"]

/-- src/parser.fu:29-37: what `setupOperators` builds, and its two variables -/
structure Setup where
  PRECEDENCE : List (String × Nat)
  RIGHT_TO_LEFT : List Bool
  precedence : Nat
  rightToLeft : Bool

/-- src/flat.fu `set` (see `Verif.Flat`), as a map: the last value stored under a key is the one found -/
def mapSet (m : List (String × Nat)) (k : String) (v : Nat) : List (String × Nat) := (k, v) :: m.filter fun e => e.1 ≠ k

/-- src/prelude.fu `ensure(exists:)`: the list made long enough, then the assignment -/
def ensureSet (l : List Bool) (i : Nat) (b : Bool) : List Bool := (l ++ List.replicate (i + 1 - l.length) false).set i b

/-- src/parser.fu:39-51 (`binop`), with `rightToLeft` as it is then; the limit of 64 is not met -/
def binop (rightToLeft : Bool) (s : Setup) (ops : List String) : Setup :=
  let precedence := s.precedence + 1
  { RIGHT_TO_LEFT := ensureSet s.RIGHT_TO_LEFT precedence rightToLeft
    PRECEDENCE := ops.foldl (fun m op => mapSet m op precedence) s.PRECEDENCE
    precedence := precedence
    rightToLeft := rightToLeft }

/-- src/parser.fu:62-88: the calls of `binop` -/
def groups : List (Bool × List String) :=
  [(false, ["*", "/", "%", "*%"]), (false, ["+", "-", "+%", "-%"]), (false, ["<<", ">>"]), (false, ["&"]), (false, ["^"]), (false, ["|"]),
   (false, ["~"]), (false, ["<>", "!<>"]), (false, ["=>", "->"]), (false, ["<", "<=", ">", ">="]), (false, ["==", "!="]), (false, ["&&"]),
   (false, ["||"]),
   (true, ["?", "=", "+=", "-=", "**=", "*=", "/=", "%=", "<<=", ">>=", "&=", "^=", "|=", "||=", "&&=", ".=", "~=", ":=", "+%=", "-%=", "*%="]),
   (true, ["<|"]), (false, ["|>"])]

/-- src/parser.fu:27-93 (`setupOperators`, `BINOP`) -/
def BINOP : Setup := groups.foldl (fun s g => binop g.1 s g.2) ⟨[], [], P_PREFIX_UNARY, false⟩

/-- `BINOP.PRECEDENCE.get(v)`: 0 when there is none -/
def prec (v : String) : Nat := (BINOP.PRECEDENCE.lookup v).getD 0
/-- `BINOP.RIGHT_TO_LEFT[p]` -/
def rtl (p : Nat) : Bool := (BINOP.RIGHT_TO_LEFT[p]?).getD false

/-! ### making nodes -/

/-- src/parser.fu:259-273 (`make`) -/
def make (kind : String) (items : List Node := []) (flags : Flags := {}) (value : String := "") : Node := .mk kind value flags false items

/-- src/parser.fu:2495-2498 (`createCall`) -/
def createCall (id : String) (flags : Flags) (args : List Node := []) : Node := make "call" args flags id

/-- src/parser.fu:2531-2537 (`createRead`) -/
def createRead (id : String) : R Node :=
  if id = "true" ∨ id = "false" then .ok (make "bool" (value := id))
  else if id = "" then .fail
  else .ok (createCall id {})

/-- src/parser.fu:2183-2202 (`createPrefix`) -/
def createPrefix (op : String) (expr : Node) : R Node :=
  if (op = "+" ∨ op = "-") ∧ (expr.kind = "int" ∨ expr.kind = "real") then
    match expr.value.toList with
    | [] => .fail
    | sign :: rest =>
      if sign = '+' ∨ sign = '-' then
        .ok (.mk expr.kind (String.ofList ((if [sign] = op.toList then '+' else '-') :: rest)) expr.flags expr.parens expr.items)
      else .ok (.mk expr.kind (op ++ expr.value) expr.flags expr.parens expr.items)
  else if op = "!" then .ok (make "not" [expr])
  else .ok (createCall op { operator := true } [expr])

/-- src/parser.fu:2696-2711 (`flattenIfSame`) -/
def flattenIfSame (kind : String) (left right : Node) : Node :=
  let items :=
    if left.kind = kind ∧ right.kind = kind then left.items ++ right.items
    else if left.kind = kind then left.items ++ [right]
    else if right.kind = kind then left :: right.items
    else [left, right]
  make kind items

/-- src/parser.fu:1955-1966 (`pipelineRight`) -/
def pipelineRight (left right : Node) : R Node :=
  if right.kind ≠ "call" then .fail
  else if right.flags.dot then
    if right.items.length < 1 then .fail
    else .ok (.mk right.kind right.value right.flags right.parens (right.items.take 1 ++ left :: right.items.drop 1))
  else .ok (.mk right.kind right.value right.flags right.parens (left :: right.items))

/-- src/parser.fu:1968-1976 (`pipelineLeft`) -/
def pipelineLeft (left right : Node) : R Node :=
  if left.kind ≠ "call" then .fail
  else .ok (.mk left.kind left.value (left.flags.or { argparens := true }) left.parens (left.items ++ [right]))

/-- `Node()` -/
def emptyNode : Node := .mk "" "" {} false []

/-- src/parser.fu:1978-1984 (`letShorthand`) with `createLet`, src/parser.fu:1773-1776 -/
def letShorthand (left right : Node) : R Node :=
  if left.kind ≠ "call" ∨ left.flags ≠ {} ∨ left.items.isEmpty = false then .fail
  else .ok (make "let" [emptyNode, right] {} left.value)

/-- src/parser.fu:1915-1939: the node for a binary operator; 1942-1953 for types -/
def combine (op : String) (left right : Node) : R Node :=
  if op = "||" then .ok (flattenIfSame "or" left right)
  else if op = "&&" then .ok (flattenIfSame "and" left right)
  else if op = "|>" then pipelineRight left right
  else if op = "<|" then pipelineLeft left right
  else if op = ":=" then letShorthand left right
  else if op = "->" then .ok (make "typeassert" [left, right])
  else if op = "=>" then .ok (make "typecast" [left, right])
  else .ok (createCall op { operator := true } [left, right])

/-- src/parser.fu:2681-2684 (`createIf`) -/
def createIf (cond cons alt : Node) : Node := make "if" [cond, cons, alt]

/-- src/helpers.fu:20-34 (`hasIdentifierChars`) -/
def hasIdentifierChars (v : String) : Bool :=
  v.toList.any fun c => c = '_' || ('a' ≤ c && c ≤ 'z') || ('A' ≤ c && c ≤ 'Z') || ('0' ≤ c && c ≤ '9')

/-- src/parser.fu:2405-2425 (`getAutoName`); nodes of kind `typeparam` and `addroffn` are not modelled.  At most `fuel`
nodes deep. -/
def getAutoName : Nat → Node → Option String
  | 0, _ => none
  | fuel + 1, expr =>
    if hasIdentifierChars expr.value ∧ expr.kind = "call" then some expr.value
    else if expr.items.isEmpty = false then
      let i := if expr.kind = "and" ∧ expr.items.length - 1 ≠ 0 then (if expr.kind = "if" then 1 else 0) else 0
      (expr.items[i]?).bind (getAutoName fuel)
    else none

/-- how deep a node is -/
def depth : Node → Nat
  | .mk _ _ _ _ items => 1 + depths items
where
  depths : List Node → Nat
    | [] => 0
    | n :: ns => max (depth n) (depths ns)

/-- src/parser.fu:2427-2430 (`createArgID`) -/
def createArgID (id : String) (expr : Node) (optional : Bool) : Node := make "argid" [expr] { optional := optional } id

/-- src/parser.fu:2444-2493: the node for a call (`parseCallExpression`) -/
def callExpr (expr : Node) (args : List Node) (argFlags : Flags) : R Node :=
  let flags := expr.flags.or argFlags
  if expr.parens then .ok (make "call_indir" (expr :: args) argFlags)
  else if expr.kind = "call" ∧ flags.dot = true ∧ flags.argparens = false then
    match expr.items with
    | [head] => if expr.value = "" then .fail else .ok (createCall expr.value (flags.or { argparens := true }) (head :: args))
    | _ => .fail
  else if expr.kind = "call" ∧ ¬ (flags.dot = true ∨ flags.argparens = true) then
    if expr.value = "" then .fail else .ok (createCall expr.value (flags.or { argparens := true }) args)
  else .ok (make "call_indir" (expr :: args) argFlags)

/-- src/parser.fu:2114-2121: `PS_PARENS` -/
def setParens : Node → Node
  | .mk k v f _ i => .mk k v f true i

/-! ### tokens -/

/-- an operator token -/
abbrev op (v : String) : Token := ⟨"op", v⟩

/-- src/parser.fu:277-291 (`consume`) for operators -/
def consumeOp (v : String) : List Token → R (List Token)
  | t :: ts => if t.kind = "op" ∧ t.value = v then .ok ts else .fail
  | [] => .fail

/-- src/parser.fu:397-419 (`softComma`) -/
def softComma (endop : String) : List Token → R (List Token)
  | t :: ts =>
    if t.kind = "op" ∧ t.value = "," then .ok ts
    else if t.kind = "op" ∧ t.value = endop then .ok (t :: ts)
    else .fail
  | [] => .fail

/-- src/parser.fu:2332-2369: how an argument begins -/
inductive ArgHead where
  | pos
  | named (name : String) (optional : Bool)
  | auto (optional : Bool)

/-- src/parser.fu:2332-2369: reads it -/
def argHead : List Token → ArgHead × List Token
  | t0 :: ts =>
    if t0.kind = "op" ∧ t0.value = "?:" then (.auto true, ts)
    else if t0.kind = "op" ∧ t0.value = ":" then (.auto false, ts)
    else if t0.kind = "id" then
      match ts with
      | t1 :: ts' =>
        if t1.kind = "op" ∧ t1.value = ":" then (.named t0.value false, ts')
        else if t1.kind = "op" ∧ t1.value = "?:" then (.named t0.value true, ts')
        else (.pos, t0 :: ts)
      | [] => (.pos, t0 :: ts)
    else (.pos, t0 :: ts)
  | [] => (.pos, [])

/-- src/parser.fu:2381-2395: the argument, and whether the call now has named arguments.  A name never is empty. -/
def argNode : ArgHead → Node → R (Node × Bool)
  | .pos, e => .ok (e, false)
  | .named name o, e => .ok (createArgID name e o, true)
  | .auto o, e => (R.of (getAutoName (depth e) e)).bind fun name => .ok (createArgID name e o, true)

/-- src/parser.fu:1852: the operator does not belong to this expression -/
def miss (p1 formal : Nat) : Bool := decide (p1 > formal) || (decide (p1 = formal) && !rtl p1)

/-- src/parser.fu:2031-2062: names that begin something else, given the token after -/
def special (v : String) : List Token → Bool
  | t :: _ => (t.kind = "id" && (v = "fn" || v = "infix" || v = "prefix" || v = "postfix")) ||
      (t.kind = "op" && t.value = "{" && (v = "struct" || v = "union")) || v = "_"
  | [] => true

/-! ### the parser.  `fuel` bounds the depth of calls; `Verif.Parse.terminates`: a linear amount always is enough. -/

mutual

/-- src/parser.fu:1778-1840 (`parseExpression`) -/
def expr : Nat → Nat → List Token → R (Node × List Token)
  | 0, _, _ => .fuel
  | f + 1, p, ts => (head f ts).bind fun (n, ts) => tails f p n ts

/-- src/parser.fu:1817-1831: the loop over the tails -/
def tails : Nat → Nat → Node → List Token → R (Node × List Token)
  | 0, _, _, _ => .fuel
  | f + 1, p, n, ts =>
    (tail f p n ts).bind fun o =>
      match o with
      | some (n, ts) => tails f p n ts
      | none => .ok (n, ts)

/-- src/parser.fu:2022-2107 (`parseExpressionHead`), with `parseParens` 2114-2121, `parsePrefix` 2166-2181,
`parseArrayLiteral` 2500-2511 -/
def head : Nat → List Token → R (Node × List Token)
  | 0, _ => .fuel
  | f + 1, ts =>
    match ts with
    | [] => .fail
    | t :: ts =>
      if t.kind = "int" ∨ t.kind = "real" ∨ t.kind = "str" ∨ t.kind = "char" then .ok (make t.kind (value := t.value), ts)
      else if t.kind = "id" then
        if special t.value ts = true then .fail else (createRead t.value).bind fun n => .ok (n, ts)
      else if t.kind = "op" then
        if t.value = "(" then
          (expr f P_RESET ts).bind fun (n, ts) => (consumeOp ")" ts).bind fun ts => .ok (setParens n, ts)
        else if t.value = "[" then
          (args f "]" [] false ts).bind fun (ns, named, ts) => .ok (make "arrlit" ns { named := named }, ts)
        else if t.value = "[]" then .ok (make "definit", ts)
        else if t.value = "{" ∨ t.value = "$" ∨ t.value = "|" ∨ t.value = "||" ∨ t.value = "." ∨ t.value = "::" then .fail
        else if PREFIX.contains t.value then
          (expr f P_PREFIX_UNARY ts).bind fun (n, ts) => (createPrefix t.value n).bind fun n => .ok (n, ts)
        else .fail
      else .fail

/-- src/parser.fu:1986-2020 (`tryParseExpressionTail`), with `tryParseBinary` 1850-1939, `parseAccessExpression` 2204-2219,
`parseCallExpression` 2432-2493, `parseIndexExpression` 2513-2524, `parseTypeAnnot` 1454-1481; `ok none` is `Node()` -/
def tail : Nat → Nat → Node → List Token → R (Option (Node × List Token))
  | 0, _, _, _ => .fuel
  | f + 1, p, n, ts =>
    match ts with
    | [] => .fail
    | t :: ts =>
      if t.kind = "op" then
        if t.value = ";" then .ok none
        else if t.value = "." then
          match ts with
          | t1 :: ts => if t1.kind = "id" then .ok (some (createCall t1.value { dot := true } [n], ts)) else .fail
          | [] => .fail
        else if t.value = "(" then
          (args f ")" [] false ts).bind fun (ns, named, ts) => (callExpr n ns { named := named }).bind fun n => .ok (some (n, ts))
        else if t.value = "[" then
          (args f "]" [] false ts).bind fun (ns, named, ts) =>
            .ok (some (createCall "[]" { operator := true, named := named } (n :: ns), ts))
        else if prec t.value ≠ 0 then
          if miss (prec t.value) p = true then .ok none
          else if t.value = "?" then
            (expr f P_RESET ts).bind fun (m, ts) => (consumeOp ":" ts).bind fun ts =>
            (expr f (prec t.value) ts).bind fun (r, ts) => .ok (some (createIf n m r, ts))
          else if t.value = "->" ∨ t.value = "=>" then
            (typeAnnot f ts).bind fun (r, ts) => (combine t.value n r).bind fun n => .ok (some (n, ts))
          else
            (expr f (prec t.value) ts).bind fun (r, ts) => (combine t.value n r).bind fun n => .ok (some (n, ts))
        else if POSTFIX.contains t.value then
          .ok (some (createCall (if t.value = "++" ∨ t.value = "--" then "postfix" ++ t.value else t.value) { operator := true } [n], ts))
        else if t.value = "::" then .fail
        else .ok none
      else .ok none

/-- src/parser.fu:1454-1481 (`parseTypeAnnot`, `allowLegacyRefs`) -/
def typeAnnot : Nat → List Token → R (Node × List Token)
  | 0, _ => .fuel
  | f + 1, ts =>
    match ts with
    | t :: ts' =>
      if t.kind = "op" ∧ t.value = "&" then
        match ts' with
        | t1 :: ts'' =>
          if t1.kind = "id" ∧ t1.value = "mut" then
            (expr f P_PREFIX_UNARY ts'').bind fun (n, ts) => .ok (createCall "&mut" { operator := true } [n], ts)
          else
            (expr f P_PREFIX_UNARY ts').bind fun (n, ts) => .ok (createCall "&" { operator := true } [n], ts)
        | [] => .fail
      else expr f P_PREFIX_UNARY ts
    | [] => .fail

/-- src/parser.fu:2274-2403 (`parseCallArgs`), a turn of the loop; `acc` is `out_args` so far, `named` whether
`F_CALL_HAS_NAMED_ARGS` is set -/
def args : Nat → String → List Node → Bool → List Token → R (List Node × Bool × List Token)
  | 0, _, _, _, _ => .fuel
  | f + 1, endop, acc, named, ts =>
    (if acc.isEmpty then R.ok ts else softComma endop ts).bind fun ts => argsBody f endop acc named ts

/-- src/parser.fu:2327-2396: the turn after the comma -/
def argsBody : Nat → String → List Node → Bool → List Token → R (List Node × Bool × List Token)
  | 0, _, _, _, _ => .fuel
  | f + 1, endop, acc, named, ts =>
    match ts with
    | [] => .fail
    | t :: ts =>
      if t.kind = "op" ∧ t.value = endop then .ok (acc, named, ts)
      else
        (expr f P_RESET (argHead (t :: ts)).2).bind fun (e, ts') =>
          (argNode (argHead (t :: ts)).1 e).bind fun (a, nm) => args f endop (acc ++ [a]) (named || nm) ts'

end

end Verif.Parse
