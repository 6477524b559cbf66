import Verif.Bdf
/-! # C99: reading a bitmap font, as the format says -/
namespace Verif.Bdf

/-- the lines of a file, without the newlines; what follows the last newline is no line -/
def linesFrom (acc : Str) : Str → List Str
  | [] => []
  | c :: rest => if c = ch '\n' then acc :: linesFrom [] rest else linesFrom (acc ++ [c]) rest

def linesOf (src : Str) : List Str := linesFrom [] src

/-- the command of a line: up to the first space (a line that starts with one is no command) -/
def word (line : Str) : Str := if line.head? = some (ch ' ') then line else line.takeWhile (· ≠ ch ' ')

/-- what follows the command -/
def rest (line : Str) : Str := if line.head? = some (ch ' ') then [] else (line.dropWhile (· ≠ ch ' ')).drop 1

/-- line by line -/
def run (s : St) : List Str → Option St
  | [] => some s
  | l :: ls =>
    match step s l (word l) (rest l) with
    | none => none
    | some s => run s ls

/-- No 32768 lines in a row without an `ENDCHAR` (`k` have gone by already). A character has at most 32767 rows. -/
def Short (k : Nat) : List Str → Prop
  | [] => True
  | l :: ls => if word l = str "ENDCHAR" then Short 0 ls else k + 1 < 32768 ∧ Short (k + 1) ls

/-- the value of a hexadecimal digit -/
def digit (c : Byte) : Option Nat :=
  if 48 ≤ c.toNat ∧ c.toNat ≤ 57 then some (c.toNat - 48)
  else if 65 ≤ c.toNat ∧ c.toNat ≤ 70 then some (c.toNat - 55)
  else none

/-- its four pixels, the highest bit first -/
def pixels (v : Nat) : List Byte := [3, 2, 1, 0].map fun i => if v.testBit i then 255 else 0

/-- the pixels of a row as written -/
def rowPixels (line : Str) : List Byte := line.flatMap fun c => match digit c with | some v => pixels v | none => []

/-- a row of a bitmap that is `w` wide: cut or padded -/
def row (w : Nat) (line : Str) : List Byte := (rowPixels line).take w ++ List.replicate (w - (rowPixels line).length) 0

/-- a glyph's pixels -/
def slice (texels : List Byte) (g : Glyph) : List Byte := (texels.drop g.top).take g.box.stride.toNat

end Verif.Bdf

/-! ### a font file as written -/
namespace Verif.Bdf

def digits (n : Nat) : Str :=
  if n < 10 then [BitVec.ofNat 8 (48 + n)] else digits (n / 10) ++ [BitVec.ofNat 8 (48 + n % 10)]

/-- a number in decimal -/
def num (i : Int) : Str := if i < 0 then ch '-' :: digits i.natAbs else digits i.natAbs

/-- a character of a font -/
structure Chr where
  name : Str
  code : Nat
  advance : Int
  w : Nat
  h : Nat
  x : Int
  y : Int
  rows : List Str

/-- its box: `w` by `h` pixels from `x`, `y` -/
def Chr.box (c : Chr) : Box :=
  ⟨BitVec.ofInt 16 c.x, BitVec.ofInt 16 (c.x + c.w), BitVec.ofInt 16 c.y, BitVec.ofInt 16 (c.y + c.h)⟩

/-- its pixels -/
def Chr.pixels (c : Chr) : List Byte := c.rows.flatMap (row c.w)

/-- the lines of a character -/
def Chr.lines (c : Chr) : List Str :=
  [str "STARTCHAR " ++ c.name, str "ENCODING " ++ num c.code, str "DWIDTH " ++ num c.advance ++ str " 0",
    str "BBX " ++ num c.w ++ str " " ++ num c.h ++ str " " ++ num c.x ++ str " " ++ num c.y, str "BITMAP"]
    ++ c.rows ++ [str "ENDCHAR"]

structure Chr.Ok (c : Chr) : Prop where
  code : c.code < 65536
  adv0 : c.advance ≠ 0
  adv : -32768 ≤ c.advance ∧ c.advance < 32768
  w : 0 < c.w ∧ c.w < 32768
  h : 0 < c.h ∧ c.h < 32768
  count : c.rows.length = c.h
  rows : ∀ r ∈ c.rows, ch '\n' ∉ r ∧ word r ≠ str "ENDCHAR"
  name : ch '\n' ∉ c.name

/-- the lines of a font file: a head, the number of characters, the characters -/
def fileLines (head : List Str) (cs : List Chr) : List Str :=
  head ++ [str "CHARS " ++ num cs.length] ++ cs.flatMap Chr.lines ++ [str "ENDFONT"]

def unlines (ls : List Str) : Str := ls.flatMap (· ++ [ch '\n'])

/-- a font file -/
def file (head : List Str) (cs : List Chr) : Str := unlines (fileLines head cs)

/-- how far a glyph advances -/
def Font.advanceOf (f : Font) (i : Nat) : Option (BitVec 16) := if f.monoAdvance ≠ 0 then some f.monoAdvance else f.advance[i]?

end Verif.Bdf
