import Verif.Basic
import Verif.Ascii
import Verif.Unicode
/-!
# Model of src/lexer.fu `lex`

The model follows the fu source.  Indices are natural numbers and `lidx` an integer (the code uses `i32`: sources of
2 GB and more are outside the model).  A read outside the source, a slice with bad bounds, or a loop that does not
advance is the error `fault`; every call of `FAIL` (through `err_str`/`err`) is the error `fail` - the text of the
message is not modelled.  Comparisons of bytes are those of signed `char`.
-/
namespace Verif.Lexer
open Verif

/-- How lexing can stop: a diagnostic for the user (`FAIL`), or a run-time fault. -/
inductive Err
  | fail | fault
  deriving DecidableEq, Repr

abbrev M := Except Err

/-- The kinds of tokens (src/lexer.fu:65, 216, 350, 412, 476, 498). -/
inductive Kind
  | sof | id | int | real | str | char | op | eof
  deriving DecidableEq, Repr

/-- src/module.fu `Token` with its `LineColChars`. -/
structure Token where
  kind : Kind
  value : Str
  line : Nat
  col : Int
  chars : Nat
  deriving DecidableEq, Repr

/-- src/lexer.fu:6. -/
def OPTOKENS : Str := str "{}[]()!?~@#$%^&*/-+<=>,.;:|"

/-- src/lexer.fu:8-32. -/
def MBOPS : List Str :=
  ["++", "--", "<<", ">>", "==", "!=", "<=", ">=", "=>", "->", "|>", "<|", "??", "?:", "..", "...", "::",
   "&&", "||", "[]", "[..]", "+=", "-=", "*=", "/=", "%=", "&=", "|=", "^=", "<<=", ">>=", "~=", "&&=", "||=",
   ".=", ":=", "+%", "-%", "*%", "+%=", "-%=", "*%=", "<>", "!<>"].map str

/-- src/lexer.fu:34. -/
def maxLen : Nat := 4

/-- `src[i]`. -/
def rd (src : Str) (i : Nat) : M Byte :=
  match src[i]? with
  | some c => .ok c
  | none => .error .fault

/-- `idx < end && src[idx]`: the zero byte when the index is past the end. -/
def peek (src : Str) (i : Nat) : M Byte := if i < src.length then rd src i else .ok 0#8

/-- `src.slice(i0, i1)`. -/
def slice (src : Str) (i0 i1 : Nat) : M Str :=
  if i0 ≤ i1 ∧ i1 ≤ src.length then .ok ((src.drop i0).take (i1 - i0)) else .error .fault

/-- `c >= a && c <= z`. -/
def rng (a z c : Byte) : Bool := Byte.le a c && Byte.le c z

/-- `c >= 'A' && c <= 'Z' || c >= 'a' && c <= 'z' || c == '_'` (line 197). -/
def idStart (c : Byte) : Bool := rng (ch 'A') (ch 'Z') c || rng (ch 'a') (ch 'z') c || c == ch '_'

/-- The test of line 202. -/
def idChar (c : Byte) : Bool :=
  rng (ch 'A') (ch 'Z') c || rng (ch 'a') (ch 'z') c || c == ch '_' || rng (ch '0') (ch '9') c

/-- `c >= '0' && c <= max || hex && (c >= 'a' && c <= 'f' || (c >= 'A' && c <= 'F'))` (lines 261-263, 278-280,
314-316, 330-332). -/
def dig (hex : Bool) (max : Byte) (c : Byte) : Bool :=
  rng (ch '0') max c || (hex && (rng (ch 'a') (ch 'f') c || rng (ch 'A') (ch 'F') c))

/-- src/lexer.fu:199-211: the loop over the characters of an identifier. -/
def idLoop (src : Str) (idx : Nat) : M Nat :=
  if idx < src.length then do
    let c ← rd src idx
    if idChar c then idLoop src (idx + 1) else .ok idx
  else .ok idx
termination_by src.length - idx

/-- src/lexer.fu:303-304: the index after an optional sign of the exponent. -/
def expSign (src : Str) (idx : Nat) : M Nat :=
  if idx < src.length then do
    let c ← rd src idx
    .ok (if c = ch '-' ∨ c = ch '+' then idx + 1 else idx)
  else .ok idx

/-- `hex ? c == 'p' || c == 'P' : c == 'e' || c == 'E'` (lines 294-295). -/
def expMark (hex : Bool) (c : Byte) : Bool :=
  if hex then c == ch 'p' || c == ch 'P' else c == ch 'e' || c == ch 'E'

/-- src/lexer.fu:258-327: the loop over the characters of a number; the result is `(dot, exp, idx)`. -/
def numLoop (src : Str) (hex ob : Bool) (max : Byte) (dot exp : Bool) (idx : Nat) : M (Bool × Bool × Nat) :=
  if idx < src.length then do
    let c ← rd src idx
    if dig hex max c then numLoop src hex ob max dot exp (idx + 1)
    else if ob then .ok (dot, exp, idx)
    else if c = ch '.' then do
      let c ← peek src (idx + 1)
      if !dig hex (ch '9') c then .ok (dot, exp, idx)
      else if dot || exp then .error .fail
      else numLoop src hex ob max true exp (idx + 1)
    else if expMark hex c then
      if exp then .error .fail
      else do
        let i ← expSign src (idx + 1)
        if idx < i then numLoop src hex ob max dot true i else .error .fault
    else if c = ch '_' then do
      let c ← peek src (idx + 1)
      if !dig hex (ch '9') c then .ok (dot, exp, idx)
      else numLoop src hex ob max dot exp (idx + 1)
    else .ok (dot, exp, idx)
  else .ok (dot, exp, idx)
termination_by src.length - idx

/-- src/lexer.fu:223-256: the prefix of a number whose first character is `c`; `(hex, ob, max, idx)`. -/
def numPrefix (src : Str) (c : Byte) (idx : Nat) : M (Bool × Bool × Byte × Nat) :=
  if c = ch '0' then do
    let c ← peek src idx
    if c = ch 'x' ∨ c = ch 'X' then .ok (true, false, ch '9', idx + 1)
    else if c = ch 'o' ∨ c = ch 'O' then .ok (false, true, ch '7', idx + 1)
    else if c = ch 'b' ∨ c = ch 'B' then .ok (false, true, ch '1', idx + 1)
    else if rng (ch '0') (ch '9') c then .error .fail
    else .ok (false, false, ch '9', idx)
  else .ok (false, false, ch '9', idx)

/-- src/lexer.fu:101-110 `parseHex`: the value of the character after index `i`. -/
def parseHex (esc : Str) (i : Nat) : M Nat := do
  let c ← rd esc (i + 1)
  if rng (ch '0') (ch '9') c then .ok (c.toNat - (ch '0').toNat)
  else if rng (ch 'A') (ch 'F') c then .ok (c.toNat - (ch 'A').toNat + 10)
  else if rng (ch 'a') (ch 'f') c then .ok (c.toNat - (ch 'a').toNat + 10)
  else .error .fail

/-- src/lexer.fu:143-160: the block `:HEX`; `i` is the index of the last character that was read.  The result is the
index of the closing brace, the number of digits and the code point. -/
def uLoop (esc : Str) (n i digits cp : Nat) : M (Nat × Nat × Nat) :=
  if i + 1 < n then do
    let c ← rd esc (i + 1)
    if c = ch '}' then .ok (i + 1, digits, cp)
    else if digits = 6 then .error .fail
    else do
      let h ← parseHex esc i
      uLoop esc n (i + 1) (digits + 1) (cp <<< 4 ||| h)
  else .error .fail
termination_by n - i

/-- src/lexer.fu:112-125: the one-character escapes. -/
def simpleEsc (quot c1 : Byte) : Option Byte :=
  if c1 = ch '\\' then some (ch '\\')
  else if c1 = ch 'n' then some 0x0a#8
  else if c1 = ch 'r' then some 0x0d#8
  else if c1 = ch 't' then some 0x09#8
  else if c1 = ch 'f' then some 0x0c#8
  else if c1 = ch 'v' then some 0x0b#8
  else if c1 = ch '0' then some 0x00#8
  else if c1 = ch 'a' then some 0x07#8
  else if c1 = ch 'b' then some 0x08#8
  else if c1 = ch 'e' then some 0x1b#8
  else if c1 = quot then some quot
  else none

/-- src/lexer.fu:97-170: one escape sequence whose backslash is at index `i`: the bytes it stands for and the index of
its last character.  The two digits of `\x` are taken in source order. -/
def escape (esc : Str) (n i : Nat) (quot : Byte) : M (Str × Nat) := do
  let c1 ← rd esc (i + 1)
  let i := i + 1
  match simpleEsc quot c1 with
  | some b => .ok ([b], i)
  | none =>
  if c1 = ch 'x' then
    if i ≥ n - 2 then .error .fail
    else do
      let h ← parseHex esc i
      let l ← parseHex esc (i + 1)
      .ok ([BitVec.ofNat 8 (h <<< 4 ||| l)], i + 2)
  else if c1 = ch 'u' then
    if i = n then .error .fail
    else do
      let b ← rd esc (i + 1)
      if b ≠ ch '{' then .error .fail
      else do
        let (j, digits, cp) ← uLoop esc n (i + 1) 0 0
        if digits = 0 then .error .fail
        else if Unicode.utf8 cp = [] then .error .fail
        else .ok (Unicode.utf8 cp, j)
  else .error .fail

/-- src/lexer.fu:87-179 `UNSAFE_unescapeStr` from index `i` on; `n` is the index of the closing quote. -/
def unescape (esc : Str) (n : Nat) (quot : Byte) (i : Nat) (out : Str) : M Str :=
  if i < n then do
    let c ← rd esc i
    if c = ch '\\' then do
      let (s, j) ← escape esc n i quot
      if i ≤ j then unescape esc n quot (j + 1) (out ++ s) else .error .fault
    else unescape esc n quot (i + 1) (out ++ [c])
  else .ok out
termination_by n - i

/-- src/lexer.fu:385 `while (src[--idx] <= ' ') {}`, from index `idx` (before the first decrement). -/
def backScan (src : Str) : Nat → M Nat
  | 0 => .error .fault
  | idx + 1 => do
    let c ← rd src idx
    if Byte.le c (ch ' ') then backScan src idx else .ok idx

/-- What the scan of a string literal leaves behind. -/
structure Scan where
  idx : Nat
  line : Nat
  lidx : Int
  esc : Bool
  ok : Bool
  deriving DecidableEq, Repr

/-- src/lexer.fu:366-396: the loop that looks for the closing quote `c`. -/
def strLoop (src : Str) (c : Byte) (idx line : Nat) (lidx : Int) (esc : Bool) : M Scan :=
  if idx < src.length then do
    let c1 ← rd src idx
    if c1 = c then .ok ⟨idx + 1, line, lidx, esc, true⟩
    else if c1 = ch '\\' then strLoop src c (idx + 2) line lidx true
    else if c1 = 0x0a#8 then
      if c ≠ ch '`' then do
        let _ ← backScan src (idx + 1)
        .error .fail
      else strLoop src c (idx + 1) (line + 1) idx esc
    else strLoop src c (idx + 1) line lidx esc
  else .ok ⟨idx, line, lidx, esc, false⟩
termination_by src.length - idx

/-- src/lexer.fu:420-430: the rest of a `//` comment; `(idx, line, lidx)`. -/
def lineLoop (src : Str) (idx line : Nat) (lidx : Int) : M (Nat × Nat × Int) :=
  if idx < src.length then do
    let c1 ← rd src idx
    if c1 = 0x0a#8 then .ok (idx + 1, line + 1, idx) else lineLoop src (idx + 1) line lidx
  else .ok (idx, line, lidx)
termination_by src.length - idx

/-- src/lexer.fu:436-450: the rest of a `/*` comment; `(idx, line, lidx)`. -/
def blockLoop (src : Str) (idx line : Nat) (lidx : Int) : M (Nat × Nat × Int) :=
  if idx < src.length then do
    let c ← rd src idx
    if c = 0x0a#8 then blockLoop src (idx + 1) (line + 1) idx
    else if c = ch '*' ∧ idx + 1 < src.length then do
      let d ← rd src (idx + 1)
      if d = ch '/' then .ok (idx + 2, line, lidx) else blockLoop src (idx + 1) line lidx
    else blockLoop src (idx + 1) line lidx
  else .ok (idx, line, lidx)
termination_by src.length - idx

/-- src/lexer.fu:460-468: the lookahead over operator characters. -/
def opLook (src : Str) (stop idx : Nat) : M Nat :=
  if idx < stop then do
    let c ← rd src idx
    if !OPTOKENS.contains c then .ok idx else opLook src stop (idx + 1)
  else .ok idx
termination_by stop - idx

/-- src/lexer.fu:470-483: candidates of `n`, `n - 1`, … characters. -/
def opShrink (src : Str) (idx0 : Nat) : Nat → M Str
  | 0 => .error .fault
  | n + 1 => do
    let candidate ← slice src idx0 (idx0 + (n + 1))
    if candidate.length = 1 || MBOPS.contains candidate then .ok candidate else opShrink src idx0 n

/-- The locals of `lex` (lines 38-43). -/
structure St where
  idx : Nat
  line : Nat
  lidx : Int
  tokens : List Token
  deriving DecidableEq, Repr

/-- src/lexer.fu:45-49 `token`, and 51-61 `token_lc` with the current line and column.  (The `SELF_TEST` check is the
theorem `C27_self_test`.) -/
def St.token (st : St) (kind : Kind) (value : Str) (idx0 idx1 : Nat) : St :=
  { st with idx := idx1, tokens := st.tokens ++ [⟨kind, value, st.line, idx0 - st.lidx, idx1 - idx0⟩] }

/-- src/lexer.fu:220-355: a number whose first character is `c`, at index `st.idx`. -/
def number (src : Str) (c : Byte) (st : St) : M St := do
  let idx0 := st.idx
  let (hex, ob, max, idx) ← numPrefix src c (idx0 + 1)
  let (dot, exp, idx) ← numLoop src hex ob max false false idx
  let trail ← rd src (idx - 1)
  if !dig hex (ch '9') trail then .error .fail
  else do
    let s ← slice src idx0 idx
    if hex && dot && !exp then .error .fail
    else match Ascii.lower s with
      | none => .error .fault
      | some v => .ok (st.token (if dot || exp then .real else .int) v idx0 idx)

/-- `esc ? UNSAFE_unescapeStr(src, idx0, idx1, c) : src.slice(idx0 + 1, idx1 - 1)` (lines 405-406). -/
def litValue (src : Str) (c : Byte) (idx0 idx1 : Nat) (esc : Bool) : M Str :=
  if esc then unescape src (idx1 - 1) c (idx0 + 1) [] else slice src (idx0 + 1) (idx1 - 1)

/-- src/lexer.fu:357-415: a literal whose opening quote `c` is at index `st.idx`. -/
def literal (src : Str) (c : Byte) (st : St) : M St := do
  let idx0 := st.idx
  let col : Int := (idx0 + 1 : Nat) - st.lidx - 1
  let r ← strLoop src c (idx0 + 1) st.line st.lidx false
  if !r.ok then .error .fail
  else do
    let s ← litValue src c idx0 r.idx r.esc
    if c = ch '\'' ∧ s.length ≠ 1 then .error .fail
    else .ok { idx := r.idx, line := r.line, lidx := r.lidx,
               tokens := st.tokens ++ [⟨if c = ch '\'' then .char else .str, s, st.line, col, r.idx - idx0⟩] }

/-- `c == '/' && idx < end && src[idx] == d` (lines 418, 434). -/
def slashThen (src : Str) (c d : Byte) (idx : Nat) : M Bool :=
  if c = ch '/' ∧ idx < src.length then do
    let e ← rd src idx
    .ok (e == d)
  else .ok false

/-- src/lexer.fu:453-491: operators. -/
def operator (src : Str) (c : Byte) (st : St) : M St :=
  if OPTOKENS.contains c then do
    let stop := if st.idx + maxLen > src.length then src.length else st.idx + maxLen
    let idx ← opLook src stop (st.idx + 1)
    let s ← opShrink src st.idx (idx - st.idx)
    .ok (st.token .op s st.idx (st.idx + s.length))
  else .error .fail

/-- The branches from line 417 on: comments, operators, errors. -/
def commentOrOp (src : Str) (c : Byte) (st : St) : M St := do
  let ln ← slashThen src c (ch '/') (st.idx + 1)
  if ln then do
    let (idx, line, lidx) ← lineLoop src (st.idx + 2) st.line st.lidx
    .ok { st with idx, line, lidx }
  else do
    let bl ← slashThen src c (ch '*') (st.idx + 1)
    if bl then do
      let (idx, line, lidx) ← blockLoop src (st.idx + 2) st.line st.lidx
      .ok { st with idx, line, lidx }
    else operator src c st

/-- src/lexer.fu:181-491: the body of the main loop. -/
def step (src : Str) (st : St) : M St := do
  let c ← rd src st.idx
  if Byte.le c (ch ' ') then
    if c = 0x0a#8 then .ok { st with idx := st.idx + 1, line := st.line + 1, lidx := st.idx }
    else .ok { st with idx := st.idx + 1 }
  else if idStart c then do
    let idx1 ← idLoop src (st.idx + 1)
    let s ← slice src st.idx idx1
    .ok (st.token .id s st.idx idx1)
  else if rng (ch '0') (ch '9') c then number src c st
  else if c = ch '\'' ∨ c = ch '"' ∨ c = ch '`' then literal src c st
  else commentOrOp src c st

/-- The main loop `while (idx < end)`. -/
def lexLoop (src : Str) (st : St) : M St :=
  if st.idx < src.length then
    match step src st with
    | .error e => .error e
    | .ok st' => if st.idx < st'.idx then lexLoop src st' else .error .fault
  else .ok st
termination_by src.length - st.idx

/-- src/lexer.fu:36-503 `lex`. -/
def lex (src : Str) : M (List Token) := do
  let st : St := { idx := 0, line := 1, lidx := -1, tokens := [] }
  let st := st.token .sof [] 0 0
  let st ← lexLoop src st
  let st := { st with line := st.line + 1, lidx := (st.idx : Int) }
  .ok (st.token .eof [] st.idx st.idx).tokens

end Verif.Lexer
