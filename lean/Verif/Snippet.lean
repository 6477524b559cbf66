import Verif.Loop
import Verif.Decstr
import Verif.Prelude
/-!
# The snippet of source in an error message: src/fail.fu:54-136, and src/ansi.fu

Lines, columns and lengths are 32-bit numbers in the source; here they are integers (the differences in the comparator
do not wrap for the lines and columns of a text).
-/
namespace Verif.Snippet
open Verif

/-- src/module.fu:174-179 `LineColChars`. -/
structure Tok where
  line : Int
  col : Int
  chars : Int
deriving DecidableEq, Repr

/-- src/fail.fu:46-52 `CodeFmt`. -/
structure Fmt where
  noLead : Bool
  noTail : Bool
  noContext : Bool
deriving DecidableEq, Repr

/-- src/ansi.fu:4 `ESC`. -/
def ESC : Str := [27#8, ch '[']

/-- src/ansi.fu:18 `RESET = ansi(0)`. -/
def RESET : Str := ESC ++ str "0" ++ [ch 'm']

/-- src/ansi.fu:19 `DIM = ansi(2)`. -/
def DIM : Str := ESC ++ str "2" ++ [ch 'm']

/-- src/ansi.fu:21 `BAD = ansi(31,1)`. -/
def BAD : Str := ESC ++ str "31" ++ [ch ';'] ++ str "1" ++ [ch 'm']

/-- src/fail.fu:57-58: the comparator `(a.line - b.line || a.col - b.col) < 0`. -/
def before (a b : Tok) : Bool :=
  (if a.line - b.line ≠ 0 then a.line - b.line else a.col - b.col) < 0

/-- src/fail.fu:60-76: the tokens from the right, `r` being what is left of those to the right of `a`; `none` is the
`throw` for tokens that are out of order. -/
def dedupe : List Tok → Option (List Tok)
  | [] => some []
  | a :: rest => do
    match ← dedupe rest with
    | [] => some [a]
    | b :: r =>
      if a.line ≠ b.line then
        if a.line < b.line then some (a :: b :: r) else none
      else if a.col + a.chars > b.col then some (b :: r)
      else some (a :: b :: r)

/-- `line.splice(at, 0, what)`: out of bounds is a failed assertion. -/
def insertAt (line : Str) (at' : Int) (what : Str) : Option Str :=
  if 0 ≤ at' ∧ at' ≤ line.length then some (line.take at'.toNat ++ what ++ line.drop at'.toNat) else none

/-- src/fail.fu:115-126: the tokens of this line from the last to the first. -/
def mark (line : Str) (lineNo : Int) : List Tok → Option Str
  | [] => some line
  | t :: rest => do
    let line ← mark line lineNo rest
    if t.line = lineNo then
      let c0 := max (min (t.col - 1) line.length) 0
      let c1 := min (c0 + t.chars) line.length
      let line ← insertAt line c1 RESET
      insertAt line c0 BAD
    else some line

/-- src/fail.fu:106-111: the margin, padded on the left to 8; the number is printed by `i64dec`. -/
def margin (lineNo : Nat) : Str :=
  let m := Decstr.i64dec (BitVec.ofNat 64 lineNo) ++ str " | "
  List.replicate (8 - m.length) (ch ' ') ++ m

/-- src/fail.fu:92-97 and 129-134: a line of context. -/
def contextRow (lines : List Str) (i : Nat) (result : Str) : Option Str := do
  let line ← lines[i]?
  some (result ++ DIM ++ str "      | " ++ line ++ RESET ++ str "\n")

/-- src/fail.fu:100-128: a line with tokens. -/
def hitRow (lines : List Str) (hl : List Tok) (i : Nat) (result : Str) : Option Str := do
  let line ← lines[i]?
  let line ← mark line (i + 1 : Nat) hl
  some (result ++ DIM ++ margin (i + 1) ++ RESET ++ line ++ str "\n")

/-- src/fail.fu:54-137 `formatCodeSnippet` after the sort: `hl` are the tokens as sorted. -/
def format (src : Str) (fmt : Fmt) (hl : List Tok) : Option Str := do
  let hl ← dedupe hl
  match hl with
  | [] => some []
  | start :: more =>
    let fin := (start :: more).getLast (by simp)
    let lines ← Prelude.split src (.many (str "\n"))
    let lStart := (max (min (start.line - 1) lines.length) 0).toNat
    let lEnd := (max (min fin.line lines.length) 0).toNat
    let lead := if fmt.noContext || fmt.noLead then 0 else 2
    let tail := if fmt.noContext || fmt.noTail then 0 else 2
    let result ← forUp (lStart - lead) lStart [] (contextRow lines)
    let result ← forUp lStart lEnd result (hitRow lines hl)
    forUp lEnd (min lines.length (lEnd + tail)) result (contextRow lines)

/-- src/ansi.fu:64-88 `strip`; `inside` is the loop of lines 73-80, after `i += 2`.  The last byte is never read by the
outer loop (`i < str.len - 1`). -/
def strip (inside : Bool) : Str → Str
  | [] => []
  | [_] => []
  | c :: d :: rest =>
    if inside then
      if c = ch 'm' then strip false (d :: rest) else strip true (d :: rest)
    else if c = 27#8 ∧ d = ch '[' then strip true rest
    else c :: strip false (d :: rest)

end Verif.Snippet
