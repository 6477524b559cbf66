import Verif.Bdf
/-! # Fonts written as source code

lib/ui/EmbeddedBitmapFont.fu:8-160, lib/ui/BitmapFont.fu:42-92 (`make_mono_bounds`), lib/ui/Font.fu:2-9.

Positions in arrays are natural numbers here (the code has 32 bits); an index out of bounds, a failed `assert` or a negative
size is `none`. -/
namespace Verif.Embed
open Verif.Bdf (Box Glyph)

/-- lib/ui/EmbeddedBitmapFont.fu:26-28: the variables of `bytes_to_bits` -/
structure Pack where
  ret : List (BitVec 64)
  buffer : BitVec 64
  bit : Nat

/-- lib/ui/EmbeddedBitmapFont.fu:30-37: one turn of the loop -/
def packStep (s : Pack) (b : Byte) : Pack :=
  if s.bit + 1 = 64 then
    ⟨s.ret ++ [s.buffer ||| ((if b ≠ 0 then 1#64 else 0#64) <<< s.bit)], 0, 0⟩
  else
    ⟨s.ret, s.buffer ||| ((if b ≠ 0 then 1#64 else 0#64) <<< s.bit), s.bit + 1⟩

/-- lib/ui/EmbeddedBitmapFont.fu:25-42 -/
def bytesToBits (bytes : List Byte) : List (BitVec 64) :=
  if (bytes.foldl packStep ⟨[], 0, 0⟩).bit ≠ 0 then
    (bytes.foldl packStep ⟨[], 0, 0⟩).ret ++ [(bytes.foldl packStep ⟨[], 0, 0⟩).buffer]
  else (bytes.foldl packStep ⟨[], 0, 0⟩).ret

/-- lib/ui/EmbeddedBitmapFont.fu:48-51, 66-67: is bit number `i` of the field set? -/
def bitAt (field : List (BitVec 64)) (i : Nat) : Option Bool :=
  (field[i >>> 6]?).map fun v => decide (v &&& (1#64 <<< (i &&& 63)) ≠ 0)

/-- lib/ui/EmbeddedBitmapFont.fu:47-52: the loop of `bits_to_bytes`, `n` turns to go -/
def unpackLoop (field : List (BitVec 64)) (bytes : List Byte) (i : Nat) : Nat → Option (List Byte)
  | 0 => some bytes
  | n + 1 => (bitAt field i).bind fun b => unpackLoop field (if b then bytes.set i 255 else bytes) (i + 1) n

/-- lib/ui/EmbeddedBitmapFont.fu:44-55 -/
def bitsToBytes (field : List (BitVec 64)) : Option (List Byte) :=
  unpackLoop field (List.replicate (field.length * 64) 0) 0 (field.length * 64)

/-- lib/ui/EmbeddedBitmapFont.fu:112-117: the loop of `hex`. The number is a `u64`: `& 0xf` and `>>= 4` are the remainder
and the quotient. -/
def hexLoop (v : Nat) : Str :=
  if h : v = 0 then [] else
    (if v % 16 ≥ 10 then BitVec.ofNat 8 (97 + (v % 16 - 10)) else BitVec.ofNat 8 (48 + v % 16)) :: hexLoop (v / 16)
termination_by v
decreasing_by omega

/-- lib/ui/EmbeddedBitmapFont.fu:108-122 -/
def hex (v : Nat) : Str := if v = 0 then str "0" else (hexLoop v ++ str "x0").reverse

/-- lib/ui/EmbeddedBitmapFont.fu:124-129: the code points listed -/
def listed (codepoints : List (BitVec 16)) : List Nat :=
  (List.range codepoints.length).filter fun c => decide (codepoints.getD c 0 ≠ 0 ∨ c = 0)

/-- lib/ui/EmbeddedBitmapFont.fu:105-106, 126-127, 132-133: a list as it is written -/
def listText (vs : List Nat) : Str := str " " ++ vs.flatMap fun v => hex v ++ str ", "

/-- lib/ui/EmbeddedBitmapFont.fu:18-19: the loop, from the last code point to the first -/
def tableLoop (cps : List (BitVec 16)) (table : List (BitVec 16)) : Nat → Option (List (BitVec 16))
  | 0 => some table
  | i + 1 =>
    match cps[i]? with
    | none => none
    | some c => if c.toNat < table.length then tableLoop cps (table.set c.toNat (BitVec.ofNat 16 i)) i else none

/-- lib/ui/EmbeddedBitmapFont.fu:16-19 -/
def table (cps : List (BitVec 16)) : Option (List (BitVec 16)) :=
  if cps.head? = some 0 then
    tableLoop cps (List.replicate ((cps.getLastD 0).toNat + 1) 0) cps.length
  else none

/-- lib/ui/EmbeddedBitmapFont.fu:62: the box being measured; `i16`s as naturals, none gets negative -/
structure Meas where
  x_min : Nat
  x_max : Nat
  y_min : Nat
  y_max : Nat
  deriving DecidableEq

/-- lib/ui/EmbeddedBitmapFont.fu:67-72 -/
def Meas.add (m : Meas) (x y : Nat) (lit : Bool) : Meas :=
  if lit then ⟨min m.x_min x, max m.x_max x, min m.y_min y, max m.y_max y⟩ else m

/-- lib/ui/EmbeddedBitmapFont.fu:65-73: a row, `n` pixels to go -/
def measRow (field : List (BitVec 64)) (y : Nat) (m : Meas) (x offset : Nat) : Nat → Option (Meas × Nat)
  | 0 => some (m, offset)
  | n + 1 => (bitAt field offset).bind fun b => measRow field y (m.add x y b) (x + 1) (offset + 1) n

/-- lib/ui/EmbeddedBitmapFont.fu:64-74: the rows, from the top -/
def measRows (field : List (BitVec 64)) (w : Nat) (m : Meas) (offset : Nat) : Nat → Option (Meas × Nat)
  | 0 => some (m, offset)
  | y + 1 => (measRow field y m 0 offset w).bind fun r => measRows field w r.1 r.2 y

/-- lib/ui/EmbeddedBitmapFont.fu:58-80 (`measure`) -/
def measure (w h : Nat) (cps : List (BitVec 16)) (field : List (BitVec 64)) (c : Char) : Option Meas :=
  (cps.idxOf? (BitVec.ofNat 16 c.toNat)).bind fun index =>
    (measRows field w ⟨w, 0, h, 0⟩ (index * (w * h)) h).bind fun r =>
      if r.2 = (index + 1) * (w * h) then some ⟨r.1.x_min, r.1.x_max + 1, r.1.y_min, r.1.y_max + 1⟩ else none

/-- what an embedded font is made of; lib/ui/EmbeddedBitmapFont.fu:3-6 without the metrics that are not boxes -/
structure Font where
  box : Box
  codepoints : List (BitVec 16)
  texels : List Byte
  deriving DecidableEq

/-- lib/ui/EmbeddedBitmapFont.fu:57-99, then 8-23: `EmbeddedBitmapFont(w, h, codepoints, bitfield)`. The ascender, the
descender and so on are left out. -/
def make (w h : Nat) (cps : List (BitVec 16)) (field : List (BitVec 64)) : Option Font :=
  (measure w h cps field 'x').bind fun x =>
  (measure w h cps field 'p').bind fun _ =>
  (measure w h cps field 'b').bind fun _ =>
  (measure w h cps field 'H').bind fun H =>
  (bitsToBytes field).bind fun texels =>
  (table cps).bind fun tab =>
    if texels.length = (cps.length * (w * h) + 63) / 64 * 64 then
      some ⟨⟨0, BitVec.ofNat 16 w, BitVec.ofInt 16 (0 - (min x.y_min H.y_min : Nat)),
        BitVec.ofInt 16 (h - (min x.y_min H.y_min : Nat))⟩, tab, texels⟩
    else none

/-- lib/ui/BitmapFont.fu:3-9 -/
structure Bitmap where
  texels : List Byte
  mono : Box
  glyphs : List Glyph

/-- lib/ui/BitmapFont.fu:53-54: `min` and `max` of `i16` -/
def smin (a b : BitVec 16) : BitVec 16 := if a.toInt < b.toInt then a else b
def smax (a b : BitVec 16) : BitVec 16 := if a.toInt > b.toInt then a else b

/-- lib/ui/BitmapFont.fu:46-49: the last box assigned -/
def firstBox (mono : Box) : List Glyph → Box
  | [] => mono
  | g :: gs => if g.box ≠ .zero then g.box else firstBox g.box gs

/-- lib/ui/BitmapFont.fu:51-56 -/
def Box.join (b : Box) (g : Glyph) : Box :=
  ⟨smin b.x_min g.box.x_min, smax b.x_max g.box.x_max, smin b.y_min g.box.y_min, smax b.y_max g.box.y_max⟩

/-- lib/ui/BitmapFont.fu:83-84: a row, `n` pixels to go -/
def copyRow (src dest : List Byte) (so d : Nat) : Nat → Option (List Byte)
  | 0 => some dest
  | n + 1 =>
    match src[so]? with
    | none => none
    | some v => if d < dest.length then copyRow src (dest.set d v) (so + 1) (d + 1) n else none

/-- lib/ui/BitmapFont.fu:82-88: `n` rows to go -/
def copyRows (src dest : List Byte) (sw dw so d : Nat) : Nat → Option (List Byte)
  | 0 => some dest
  | n + 1 => (copyRow src dest so d sw).bind fun dest => copyRows src dest sw dw (so + sw) (d + dw) n

/-- lib/ui/BitmapFont.fu:68-89: glyph number `i`, and those after it -/
def copyGlyphs (src : List Byte) (D : Box) (dest : List Byte) (i : Nat) : List Glyph → Option (List Byte)
  | [] => some dest
  | g :: gs =>
    if g.box.x_min.toInt - D.x_min.toInt ≥ 0 ∧ D.y_max.toInt - g.box.y_max.toInt ≥ 0 ∧
        max g.box.width 0 ≤ max D.width 0 ∧ max g.box.height 0 ≤ max D.height 0 then
      (copyRows src dest (max g.box.width 0).toNat (max D.width 0).toNat g.top
        (i * D.stride.toNat + (D.y_max.toInt - g.box.y_max.toInt).toNat * (max D.width 0).toNat +
          (g.box.x_min.toInt - D.x_min.toInt).toNat) (max g.box.height 0).toNat).bind fun dest =>
        copyGlyphs src D dest (i + 1) gs
    else none

/-- lib/ui/BitmapFont.fu:42-92 -/
def makeMono (bf : Bitmap) : Option Bitmap :=
  if bf.mono ≠ .zero then some bf else
  let D := bf.glyphs.foldl Box.join (firstBox bf.mono bf.glyphs)
  if bf.glyphs.length * D.stride < 0 then none else
  (copyGlyphs bf.texels D (List.replicate (bf.glyphs.length * D.stride.toNat) 0) 0 bf.glyphs).map fun texels =>
    ⟨texels, D, (List.range bf.glyphs.length).map fun i => ⟨D, i * D.stride.toNat⟩⟩

/-- lib/ui/EmbeddedBitmapFont.fu:101-158: what is written into the source code: width, height, code points, bits -/
structure Source where
  w : Int
  h : Int
  shorts : Str
  ulongs : Str

/-- lib/ui/EmbeddedBitmapFont.fu:101-158 (`EmbeddedBitmapFont_emit`). The box is the font's, the pixels are the bitmap's. -/
def emit (box : Box) (codepoints : List (BitVec 16)) (bf : Bitmap) : Option Source :=
  (makeMono bf).map fun b =>
    ⟨box.width, box.height, listText (listed codepoints), listText ((bytesToBits b.texels).map BitVec.toNat)⟩

end Verif.Embed
