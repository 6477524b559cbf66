import Verif.Lexer
import Verif.UnicodeProps
/-!
# The lexical grammar of fu (specification for C27, C28, C54)

A source is a sequence of *pieces*: blanks, comments and tokens.  `Piece.text` is what is written, `Piece.token` what
the compiler sees, `Piece.Valid p rest` when `p` is a well-formed piece that ends exactly where `rest` begins.  Only
the tables of operators are taken from the model.
-/
namespace Verif.Lexer
open Verif

/-- The byte is one of the characters from `a` to `z`. -/
def between (a z : Char) (b : Byte) : Bool := a.toNat ≤ b.toNat && b.toNat ≤ z.toNat
def letter (b : Byte) : Bool := between 'A' 'Z' b || between 'a' 'z' b || b = ch '_'
def digit (b : Byte) : Bool := between '0' '9' b
def hexDigit (b : Byte) : Bool := digit b || between 'a' 'f' b || between 'A' 'F' b
/-- Control characters, the space - and every byte of a non-ASCII character. -/
def blank (b : Byte) : Bool := b.toNat ≤ 32 || 128 ≤ b.toNat
def newline : Byte := 0x0a#8

/-! ### Numbers -/

inductive Base
  | dec | hex | oct | bin
  deriving DecidableEq, Repr

def Base.digit : Base → Byte → Bool
  | .dec => Lexer.digit
  | .hex => hexDigit
  | .oct => between '0' '7'
  | .bin => between '0' '1'

/-- Digits, each with a flag: is it preceded by an underscore? -/
abbrev Digs := List (Bool × Byte)
def Digs.text (ds : Digs) : Str := ds.flatMap fun d => if d.1 then [ch '_', d.2] else [d.2]

/-- A number: base (and case of its letter), digits, fraction, exponent (mark, sign, digits). -/
structure Num where
  base : Base
  upper : Bool
  int : Digs
  frac : Option Digs
  exp : Option (Byte × Option Byte × Digs)
  deriving DecidableEq, Repr

def Num.prefixText (n : Num) : Str :=
  match n.base, n.upper with
  | .dec, _ => []
  | .hex, false => str "0x" | .hex, true => str "0X"
  | .oct, false => str "0o" | .oct, true => str "0O"
  | .bin, false => str "0b" | .bin, true => str "0B"

def fracText : Option Digs → Str
  | none => []
  | some f => ch '.' :: f.text
def expText : Option (Byte × Option Byte × Digs) → Str
  | none => []
  | some (m, s, e) => m :: (s.toList ++ e.text)

def Num.text (n : Num) : Str := n.prefixText ++ (n.int.text ++ (fracText n.frac ++ expText n.exp))

/-- The letters that introduce an exponent: `e`, or `p` in hexadecimal. -/
def Base.mark : Base → Byte → Bool
  | .dec, b => b = ch 'e' || b = ch 'E'
  | .hex, b => b = ch 'p' || b = ch 'P'
  | _, _ => false

structure Num.Valid (n : Num) : Prop where
  digits : ∀ d ∈ n.int, n.base.digit d.2
  /-- a decimal number starts with a digit, and not with `0` and another digit -/
  dec : n.base = .dec → ∃ d ds, n.int = (false, d) :: ds ∧ ¬ (d = ch '0' ∧ ∃ e es, ds = (false, e) :: es)
  /-- `0o` and `0b` numbers are plain digits (no underscores) -/
  ob : n.base = .oct ∨ n.base = .bin → n.int ≠ [] ∧ (∀ d ∈ n.int, d.1 = false) ∧ n.frac = none ∧ n.exp = none
  /-- `0x` alone is no number, and a hexadecimal fraction needs an exponent -/
  hex : n.base = .hex → (n.frac = none → n.exp = none → n.int ≠ []) ∧ (n.frac ≠ none → n.exp ≠ none)
  frac : ∀ f, n.frac = some f → (∃ d ds, f = (false, d) :: ds) ∧ ∀ d ∈ f, n.base.digit d.2
  exp : ∀ m s e, n.exp = some (m, s, e) → n.base.mark m ∧ (∀ c, s = some c → c = ch '+' ∨ c = ch '-') ∧ e ≠ [] ∧
    ∀ d ∈ e, n.base.digit d.2

/-- The number ends before `rest`. -/
structure Num.Ends (n : Num) (rest : Str) : Prop where
  digit : ∀ d t, rest = d :: t → ¬ n.base.digit d
  joined : n.base = .dec ∨ n.base = .hex → ∀ c d t, rest = c :: d :: t → c = ch '_' ∨ c = ch '.' → ¬ n.base.digit d
  mark : ∀ m t, rest = m :: t → ¬ n.base.mark m
  zero : n.text = [ch '0'] → ∀ c t, rest = c :: t → c ∉ str "xXoObB"

/-! ### String and character literals -/

/-- What a character after a backslash stands for. -/
def escVal (quote c : Byte) : Option Byte :=
  if c = ch '\\' then some (ch '\\') else
  if c = ch 'n' then some 10#8 else if c = ch 'r' then some 13#8 else if c = ch 't' then some 9#8 else
  if c = ch 'f' then some 12#8 else if c = ch 'v' then some 11#8 else if c = ch '0' then some 0#8 else
  if c = ch 'a' then some 7#8 else if c = ch 'b' then some 8#8 else if c = ch 'e' then some 27#8 else
  if c = quote then some quote else none

def hexVal (b : Byte) : Nat :=
  if between '0' '9' b then b.toNat - '0'.toNat
  else if between 'A' 'F' b then b.toNat - 'A'.toNat + 10 else b.toNat - 'a'.toNat + 10

def hexNum (ds : List Byte) : Nat := ds.foldl (fun v d => 16 * v + hexVal d) 0

/-- One character of a literal: a plain byte, `\c`, `\xhl` or `\u{ds}`. -/
inductive Item
  | plain (b : Byte) | esc (c : Byte) | hex (h l : Byte) | uni (ds : List Byte)
  deriving DecidableEq, Repr

def Item.text : Item → Str
  | .plain b => [b]
  | .esc c => [ch '\\', c]
  | .hex h l => [ch '\\', ch 'x', h, l]
  | .uni ds => ch '\\' :: ch 'u' :: ch '{' :: (ds ++ [ch '}'])

def Item.value (quote : Byte) : Item → Str
  | .plain b => [b]
  | .esc c => (escVal quote c).toList
  | .hex h l => [BitVec.ofNat 8 (16 * hexVal h + hexVal l)]
  | .uni ds => (Unicode.rfc (hexNum ds)).map Unicode.byteOf

def Item.Valid (quote : Byte) : Item → Prop
  | .plain b => b ≠ quote ∧ b ≠ ch '\\' ∧ (b = newline → quote = ch '`')
  | .esc c => (escVal quote c).isSome
  | .hex h l => hexDigit h ∧ hexDigit l
  | .uni ds => 1 ≤ ds.length ∧ ds.length ≤ 6 ∧ (∀ d ∈ ds, hexDigit d) ∧ hexNum ds ≤ 0x10ffff

/-! ### Pieces -/

inductive Piece
  | blank (b : Byte)
  | line (body : Str) (closed : Bool)
  | block (body : Str) (closed : Bool)
  | ident (s : Str)
  | num (n : Num)
  | lit (quote : Byte) (items : List Item)
  | op (s : Str)
  deriving DecidableEq, Repr

def Piece.text : Piece → Str
  | .blank b => [b]
  | .line body closed => str "//" ++ (body ++ if closed then [newline] else [])
  | .block body closed => str "/*" ++ (body ++ if closed then str "*/" else [])
  | .ident s => s
  | .num n => n.text
  | .lit q items => q :: (items.flatMap Item.text ++ [q])
  | .op s => s

/-- Kind and value of the token that a piece gives; blanks and comments give none.  Numbers are in lower case. -/
def Piece.token : Piece → Option (Kind × Str)
  | .blank _ | .line _ _ | .block _ _ => none
  | .ident s => some (.id, s)
  | .num n => some (if n.frac = none ∧ n.exp = none then .int else .real, n.text.map Ascii.lowerB)
  | .lit q items => some (if q = ch '\'' then .char else .str, items.flatMap (Item.value q))
  | .op s => some (.op, s)

/-- The known operators. -/
def Op (s : Str) : Prop := (∃ c ∈ OPTOKENS, s = [c]) ∨ s ∈ MBOPS

/-- `p` is a well-formed piece that ends where `rest` begins. -/
def Piece.Valid : Piece → Str → Prop
  | .blank b, _ => Lexer.blank b
  | .line body closed, rest => newline ∉ body ∧ (closed = false → rest = [])
  | .block body closed, rest =>
      (∀ i < body.length, ¬ str "*/" <+: (body ++ if closed then str "*/" else []).drop i) ∧ (closed = false → rest = [])
  | .ident s, rest => (∃ c t, s = c :: t ∧ letter c ∧ ∀ b ∈ t, letter b ∨ digit b) ∧
      ∀ b t, rest = b :: t → ¬ letter b ∧ ¬ digit b
  | .num n, rest => n.Valid ∧ n.Ends rest
  | .lit q items, _ => (q = ch '\'' ∨ q = ch '"' ∨ q = ch '`') ∧ (∀ i ∈ items, i.Valid q) ∧
      (q = ch '\'' → (items.flatMap (Item.value q)).length = 1)
  | .op s, rest => Op s ∧ (∀ o, Op o → o <+: s ++ rest → o.length ≤ s.length) ∧
      ¬ str "//" <+: s ++ rest ∧ ¬ str "/*" <+: s ++ rest

/-- `src` is the concatenation of the valid pieces `ps`. -/
inductive Pieces : Str → List Piece → Prop
  | nil : Pieces [] []
  | cons {p rest ps} : p.Valid rest → Pieces rest ps → Pieces (p.text ++ rest) (p :: ps)

/-! ### Positions -/

/-- Line (from 1) and column (from 1, in bytes) of an offset in the source. -/
def lineAt (src : Str) (off : Nat) : Nat := 1 + (src.take off).count newline
def colAt (src : Str) (off : Nat) : Nat := 1 + ((src.take off).reverse.takeWhile (· ≠ newline)).length

/-- The tokens of the pieces that start at offset `off`. -/
def tokensOf (src : Str) : Nat → List Piece → List Token
  | _, [] => []
  | off, p :: ps =>
    (match p.token with
      | none => []
      | some (k, v) => [⟨k, v, lineAt src off, colAt src off, p.text.length⟩]) ++ tokensOf src (off + p.text.length) ps

/-- What `lex` returns for the pieces `ps`: a start token, the tokens, and an end token. -/
def output (src : Str) (ps : List Piece) : List Token :=
  ⟨.sof, [], 1, 1, 0⟩ :: tokensOf src 0 ps ++ [⟨.eof, [], lineAt src src.length + 1, 0, 0⟩]

end Verif.Lexer
