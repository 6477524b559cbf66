import Verif.Parse
/-!
# How expressions read: the grammar, and what the trees mean
-/
namespace Verif.Parse
open Verif

/-- what stands before an argument: nothing, `name:` or `name?:`, `:` or `?:` -/
inductive Label where
  | none
  | name (n : String) (optional : Bool)
  | auto (optional : Bool)
  deriving DecidableEq

/-- what stands before a type: nothing, `&`, `&mut` -/
inductive Ref where
  | none
  | imm
  | mutable
  deriving DecidableEq

mutual
/-- expressions as they are written -/
inductive Expr where
  | lit (kind value : String)
  | id (v : String)
  | definit
  | paren (e : Expr)
  | arr (as : Args)
  | pre (op : String) (e : Expr)
  | bin (op : String) (l r : Expr)
  | cond (c m a : Expr)
  | cast (op : String) (l : Expr) (k : Ref) (r : Expr)
  | dot (e : Expr) (v : String)
  | call (e : Expr) (as : Args)
  | index (e : Expr) (as : Args)
  | post (op : String) (e : Expr)
/-- arguments: none, one, or one followed by a comma and more (or none: a trailing comma) -/
inductive Args where
  | nil
  | one (l : Label) (e : Expr)
  | cons (l : Label) (e : Expr) (rest : Args)
end

/-! ### the text -/

/-- `:` or `?:` -/
def colon (optional : Bool) : Token := op (if optional then "?:" else ":")

def Label.toks : Label → List Token
  | .none => []
  | .name n o => [⟨"id", n⟩, colon o]
  | .auto o => [colon o]

def Ref.toks : Ref → List Token
  | .none => []
  | .imm => [op "&"]
  | .mutable => [op "&", ⟨"id", "mut"⟩]

mutual
/-- the tokens of an expression -/
def Expr.toks : Expr → List Token
  | .lit k v => [⟨k, v⟩]
  | .id v => [⟨"id", v⟩]
  | .definit => [op "[]"]
  | .paren e => op "(" :: (e.toks ++ [op ")"])
  | .arr as => op "[" :: (as.toks ++ [op "]"])
  | .pre o e => op o :: e.toks
  | .bin o l r => l.toks ++ op o :: r.toks
  | .cond c m a => c.toks ++ op "?" :: (m.toks ++ op ":" :: a.toks)
  | .cast o l k r => l.toks ++ op o :: (k.toks ++ r.toks)
  | .dot e v => e.toks ++ [op ".", ⟨"id", v⟩]
  | .call e as => e.toks ++ op "(" :: (as.toks ++ [op ")"])
  | .index e as => e.toks ++ op "[" :: (as.toks ++ [op "]"])
  | .post o e => e.toks ++ [op o]
def Args.toks : Args → List Token
  | .nil => []
  | .one l e => l.toks ++ e.toks
  | .cons l e rest => l.toks ++ (e.toks ++ op "," :: rest.toks)
end

/-! ### precedence: lower binds tighter -/

/-- the level of a binary operator; 0 when it is none -/
def level (v : String) : Nat :=
  if v ∈ ["*", "/", "%", "*%"] then 2
  else if v ∈ ["+", "-", "+%", "-%"] then 3
  else if v ∈ ["<<", ">>"] then 4
  else if v ∈ ["&"] then 5
  else if v ∈ ["^"] then 6
  else if v ∈ ["|"] then 7
  else if v ∈ ["~"] then 8
  else if v ∈ ["<>", "!<>"] then 9
  else if v ∈ ["=>", "->"] then 10
  else if v ∈ ["<", "<=", ">", ">="] then 11
  else if v ∈ ["==", "!="] then 12
  else if v ∈ ["&&"] then 13
  else if v ∈ ["||"] then 14
  else if v ∈ ["?", "=", "+=", "-=", "**=", "*=", "/=", "%=", "<<=", ">>=", "&=", "^=", "|=", "||=", "&&=", ".=", "~=", ":=", "+%=", "-%=", "*%="] then 15
  else if v ∈ ["<|"] then 16
  else if v ∈ ["|>"] then 17
  else 0

/-- the levels that group to the right: assignments, conditionals, `<|` -/
def right (p : Nat) : Bool := p = 15 || p = 16

/-- how loosely an expression holds together, seen from its right end: 0 for atoms and what is attached to them, 1 after
prefix operators - and after the type of a cast, which never goes on with an operator -/
def Expr.edge : Expr → Nat
  | .pre _ _ => 1
  | .bin o _ _ => level o
  | .cond _ _ _ => 15
  | .cast _ _ _ _ => 1
  | _ => 0

/-- the loosest of the operators along its left -/
def Expr.lev : Expr → Nat
  | .pre _ _ => 1
  | .bin o l _ => max (level o) l.lev
  | .cond c _ _ => max 15 c.lev
  | .cast _ l _ _ => max 10 l.lev
  | _ => 0

def prefixOps : List String := ["++", "+", "--", "-", "!", "~", "?", "*", "&", "-%"]
def postfixOps : List String := ["++", "--", "[]", "[..]"]

mutual
/-- every operand holds together more tightly than its operator requires; otherwise it would need parentheses -/
def Expr.Grouped : Expr → Prop
  | .lit k _ => k ∈ ["int", "real", "str", "char"]
  | .id v => v ≠ "_" ∧ v ≠ ""
  | .definit => True
  | .paren e => e.Grouped
  | .arr as => as.Grouped
  | .pre o e => o ∈ prefixOps ∧ e.lev ≤ 1 ∧ e.Grouped
  | .bin o l r => level o ≠ 0 ∧ o ≠ "?" ∧ o ≠ "->" ∧ o ≠ "=>" ∧ l.Grouped ∧ r.Grouped ∧
      (if right (level o) then l.edge < level o ∧ r.lev ≤ level o else l.edge ≤ level o ∧ r.lev < level o)
  | .cond c m a => c.Grouped ∧ m.Grouped ∧ a.Grouped ∧ c.edge < 15 ∧ a.lev ≤ 15
  | .cast o l k r => (o = "->" ∨ o = "=>") ∧ l.Grouped ∧ r.Grouped ∧ l.edge ≤ 10 ∧ r.lev ≤ 1 ∧
      (k = .none → r.toks.head? ≠ some (op "&")) ∧ (k = .imm → r.toks.head? ≠ some ⟨"id", "mut"⟩)
  | .dot e _ => e.Grouped ∧ e.edge = 0
  | .call e as => e.Grouped ∧ e.edge = 0 ∧ as.Grouped
  | .index e as => e.Grouped ∧ e.edge = 0 ∧ as.Grouped
  | .post o e => o ∈ postfixOps ∧ e.Grouped ∧ e.edge = 0
def Args.Grouped : Args → Prop
  | .nil => True
  | .one _ e => e.Grouped
  | .cons _ e rest => e.Grouped ∧ rest.Grouped
end

/-- names that may begin something else than an expression -/
def reserved : List String := ["fn", "infix", "prefix", "postfix", "struct", "union"]

mutual
/-- no name is one of those -/
def Expr.Plain : Expr → Prop
  | .lit _ _ => True
  | .id v => v ∉ reserved
  | .definit => True
  | .paren e => e.Plain
  | .arr as => as.Plain
  | .pre _ e => e.Plain
  | .bin _ l r => l.Plain ∧ r.Plain
  | .cond c m a => c.Plain ∧ m.Plain ∧ a.Plain
  | .cast _ l _ r => l.Plain ∧ r.Plain
  | .dot e _ => e.Plain
  | .call e as => e.Plain ∧ as.Plain
  | .index e as => e.Plain ∧ as.Plain
  | .post _ e => e.Plain
def Args.Plain : Args → Prop
  | .nil => True
  | .one _ e => e.Plain
  | .cons _ e rest => e.Plain ∧ rest.Plain
end

/-! ### the meaning -/

/-- the name of a name, in parentheses or not -/
def Expr.name? : Expr → Option String
  | .id v => if v = "true" ∨ v = "false" then none else some v
  | .paren e => e.name?
  | _ => none

/-- a sign before a number that may have one -/
def signed (o v : String) : String :=
  match v.toList with
  | '+' :: r => (if o = "-" then "-" else "+") ++ String.ofList r
  | '-' :: r => (if o = "-" then "+" else "-") ++ String.ofList r
  | _ => o ++ v

/-- a logical operator, over the operands of operands of the same kind -/
def logical (kind : String) (l r : Node) : Node :=
  .mk kind "" {} false ((if l.kind = kind then l.items else [l]) ++ (if r.kind = kind then r.items else [r]))

/-- a call with one more argument: in front, but after the `x` of `x.f`, … -/
def withFirst (x : Node) : Node → Option Node
  | .mk "call" v f p items => some (.mk "call" v f p (if f.dot then items.take 1 ++ [x] ++ items.drop 1 else x :: items))
  | _ => none

/-- … or at the end -/
def withLast (x : Node) : Node → Option Node
  | .mk "call" v f p items => some (.mk "call" v { f with argparens := true } p (items ++ [x]))
  | _ => none

/-- the name an argument gets from its expression: that of a name, member or call; of `_ ? NAME : _`, `NAME || _` and
`_ && NAME` that of NAME; of operators that of the first operand.  `fuel`: how deep to look. -/
def ownName : Nat → Node → Option String
  | 0, _ => none
  | fuel + 1, n =>
    if n.kind = "call" ∧ hasIdentifierChars n.value then some n.value
    else if n.kind = "if" then (n.items[1]?).bind (ownName fuel)
    else if n.kind = "and" then n.items.getLast?.bind (ownName fuel)
    else n.items.head?.bind (ownName fuel)

/-- an argument, and whether it has a name -/
def Label.apply (nameOf : Node → Option String) : Label → Node → Option (Node × Bool)
  | .none, n => some (n, false)
  | .name v o, n => some (.mk "argid" v { optional := o } false [n], true)
  | .auto o, n => (nameOf n).map fun v => (.mk "argid" v { optional := o } false [n], true)

/-- the call of an expression, whose tree is `n`: by name when it is one or ends with one, `x.f(…)` with `x` as the first
argument, and otherwise of its value -/
def Expr.called (e : Expr) (n : Node) (ns : List Node) (nm : Bool) : Node :=
  match e with
  | .id v => if v = "true" ∨ v = "false" then .mk "call_indir" "" { named := nm } false (n :: ns)
    else .mk "call" v { argparens := true, named := nm } false ns
  | .dot _ v => .mk "call" v { dot := true, argparens := true, named := nm } false (n.items ++ ns)
  | _ => .mk "call_indir" "" { named := nm } false (n :: ns)

mutual
/-- the tree an expression stands for; `nameOf` names arguments -/
def Expr.mean (nameOf : Node → Option String) : Expr → Option Node
  | .lit k v => some (.mk k v {} false [])
  | .id v => some (if v = "true" ∨ v = "false" then .mk "bool" v {} false [] else .mk "call" v {} false [])
  | .definit => some (.mk "definit" "" {} false [])
  | .paren e => (e.mean nameOf).map fun n => .mk n.kind n.value n.flags true n.items
  | .arr as => (as.mean nameOf).map fun (ns, nm) => .mk "arrlit" "" { named := nm } false ns
  | .pre o e => (e.mean nameOf).map fun n =>
      if (o = "+" ∨ o = "-") ∧ (n.kind = "int" ∨ n.kind = "real") then .mk n.kind (signed o n.value) n.flags n.parens n.items
      else if o = "!" then .mk "not" "" {} false [n]
      else .mk "call" o { operator := true } false [n]
  | .bin o l r => (l.mean nameOf).bind fun a => (r.mean nameOf).bind fun b =>
      if o = "||" then some (logical "or" a b)
      else if o = "&&" then some (logical "and" a b)
      else if o = "|>" then withFirst a b
      else if o = "<|" then withLast b a
      else if o = ":=" then l.name?.map fun v => .mk "let" v {} false [emptyNode, b]
      else some (.mk "call" o { operator := true } false [a, b])
  | .cond c m a => (c.mean nameOf).bind fun x => (m.mean nameOf).bind fun y => (a.mean nameOf).map fun z => .mk "if" "" {} false [x, y, z]
  | .cast o l k r => (l.mean nameOf).bind fun a => (r.mean nameOf).map fun b =>
      let t := match k with
        | .none => b
        | .imm => .mk "call" "&" { operator := true } false [b]
        | .mutable => .mk "call" "&mut" { operator := true } false [b]
      .mk (if o = "->" then "typeassert" else "typecast") "" {} false [a, t]
  | .dot e v => (e.mean nameOf).map fun n => .mk "call" v { dot := true } false [n]
  | .call e as => (e.mean nameOf).bind fun n => (as.mean nameOf).map fun (ns, nm) => e.called n ns nm
  | .index e as => (e.mean nameOf).bind fun n => (as.mean nameOf).map fun (ns, nm) => .mk "call" "[]" { operator := true, named := nm } false (n :: ns)
  | .post o e => (e.mean nameOf).map fun n =>
      .mk "call" (if o = "++" then "postfix++" else if o = "--" then "postfix--" else o) { operator := true } false [n]
def Args.mean (nameOf : Node → Option String) : Args → Option (List Node × Bool)
  | .nil => some ([], false)
  | .one l e => (e.mean nameOf).bind fun n => (l.apply nameOf n).map fun (a, nm) => ([a], nm)
  | .cons l e rest => (e.mean nameOf).bind fun n => (l.apply nameOf n).bind fun (a, nm) => (rest.mean nameOf).map fun (as, nms) => (a :: as, nm || nms)
end

mutual
/-- members have names, numbers digits; and nothing is called that is an index or postfix expression (without parentheses) -/
def Expr.Sane : Expr → Prop
  | .lit _ v => v ≠ ""
  | .id _ => True
  | .definit => True
  | .paren e => e.Sane
  | .arr as => as.Sane
  | .pre _ e => e.Sane
  | .bin _ l r => l.Sane ∧ r.Sane
  | .cond c m a => c.Sane ∧ m.Sane ∧ a.Sane
  | .cast _ l _ r => l.Sane ∧ r.Sane
  | .dot e v => e.Sane ∧ v ≠ ""
  | .call e as => e.Sane ∧ as.Sane ∧ (∀ x xs, e ≠ .index x xs) ∧ (∀ o x, e ≠ .post o x)
  | .index e as => e.Sane ∧ as.Sane
  | .post _ e => e.Sane
def Args.Sane : Args → Prop
  | .nil => True
  | .one _ e => e.Sane
  | .cons _ e rest => e.Sane ∧ rest.Sane
end

end Verif.Parse
