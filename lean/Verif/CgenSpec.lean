import Verif.Basic
/-!
# Specification: reading a C++17 literal

Written from [lex.ccon], [lex.string] and [lex.phases] of the C++ standard, independently of `src/codegen.fu`: what a
conforming compiler makes of a narrow literal.  (Phases 1-3 do nothing here: C++17 has no trigraphs, and line splices need a
backslash before a newline, which no literal below contains.)
-/
namespace Verif.Cgen.Spec
open Verif

/-- simple-escape-sequence. -/
def simple (c : Byte) : Option Byte :=
  if c = ch '\'' then some (ch '\'') else if c = ch '"' then some (ch '"') else if c = ch '?' then some (ch '?') else
  if c = ch '\\' then some (ch '\\') else if c = ch 'a' then some 7#8 else if c = ch 'b' then some 8#8 else
  if c = ch 'f' then some 12#8 else if c = ch 'n' then some 10#8 else if c = ch 'r' then some 13#8 else
  if c = ch 't' then some 9#8 else if c = ch 'v' then some 11#8 else none

/-- Value of a digit of base 16, if it is one. -/
def digit16 (c : Byte) : Option Nat :=
  let n := c.toNat
  if 48 ≤ n ∧ n ≤ 57 then some (n - 48) else if 65 ≤ n ∧ n ≤ 70 then some (n - 55)
  else if 97 ≤ n ∧ n ≤ 102 then some (n - 87) else none

def isHex (c : Byte) : Bool := (digit16 c).isSome
def isOct (c : Byte) : Bool := 48 ≤ c.toNat && c.toNat ≤ 55

/-- Value of a numeral. -/
def num (base : Nat) (ds : Str) : Nat := ds.foldl (fun n d => base * n + (digit16 d).getD 0) 0

/-- Octal escapes have at most three digits. -/
def octs (t : Str) : Str := (t.takeWhile isOct).take 3

/-- Reads the characters of a literal up to its closing quote `q`: their values, and the text after the quote.  A
hexadecimal escape takes as many digits as there are; a numeric escape above 255 does not fit a `char` and is ill-formed;
a literal does not span lines. -/
def body (q : Byte) : Str → Option (Str × Str)
  | [] => none
  | b :: t =>
    if b = q then some ([], t)
    else if b = 10#8 then none
    else if b ≠ ch '\\' then (body q t).map fun (v, r) => (b :: v, r)
    else match t with
      | [] => none
      | c :: u =>
        if (simple c).isSome then (body q u).map fun (v, r) => ((simple c).getD 0#8 :: v, r)
        else if c = ch 'x' then
          if u.takeWhile isHex = [] ∨ num 16 (u.takeWhile isHex) > 255 then none
          else (body q (u.drop (u.takeWhile isHex).length)).map fun (v, r) => (BitVec.ofNat 8 (num 16 (u.takeWhile isHex)) :: v, r)
        else if octs (c :: u) = [] ∨ num 8 (octs (c :: u)) > 255 then none
        else (body q (u.drop ((octs (c :: u)).length - 1))).map fun (v, r) => (BitVec.ofNat 8 (num 8 (octs (c :: u))) :: v, r)
termination_by s => s.length
decreasing_by all_goals simp only [List.length_cons, List.length_drop]; omega

/-- A string literal and the literals that follow it directly: adjacent literals are concatenated (phase 6), after the
escapes of each have been converted (phase 5).  The result is the array without its final NUL - its length is the `len`
that a user-defined literal operator receives - and the text that follows. -/
def strings : Nat → Str → Option (Str × Str)
  | 0, _ => none
  | n + 1, t =>
    match t with
    | [] => none
    | b :: t =>
      if b ≠ ch '"' then none
      else match body (ch '"') t with
        | none => none
        | some (v, r) => if r.head? = some (ch '"') then (strings n r).map fun (w, r) => (v ++ w, r) else some (v, r)

/-- The string denoted by the literal at the start of a text, and the rest of the text. -/
def readString (t : Str) : Option (Str × Str) := strings (t.length + 1) t

/-- The `char` denoted by the character literal at the start of a text; a literal of several characters is not a `char`. -/
def readChar (t : Str) : Option (Byte × Str) :=
  match t with
  | b :: t => if b = ch '\'' then (match body (ch '\'') t with | some ([c], r) => some (c, r) | _ => none) else none
  | [] => none

end Verif.Cgen.Spec
