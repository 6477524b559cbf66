import Verif.Embed
/-! # Fonts written as source code: what is meant -/
namespace Verif.Embed
open Verif.Bdf (Box Glyph)

/-- black or white -/
def lit (b : Byte) : Byte := if b = 0 then 0 else 255

/-- the point (X, Y) of a glyph drawn with its origin at (0, 0), y upwards: the rows of the glyph are stored one after the
other from the top, at its place among the texels; there is nothing outside its box -/
def ink (texels : List Byte) (g : Glyph) (X Y : Int) : Byte :=
  if g.box.x_min.toInt ≤ X ∧ X < g.box.x_max.toInt ∧ g.box.y_min.toInt ≤ Y ∧ Y < g.box.y_max.toInt then
    texels.getD (g.top + (g.box.y_max.toInt - 1 - Y).toNat * (g.box.x_max.toInt - g.box.x_min.toInt).toNat +
      (X - g.box.x_min.toInt).toNat) 0
  else 0

/-- a bitmap font that makes sense: the boxes are boxes, and the pixels of each are there -/
structure Bitmap.Ok (bf : Bitmap) : Prop where
  x : ∀ g ∈ bf.glyphs, g.box.x_min.toInt ≤ g.box.x_max.toInt
  y : ∀ g ∈ bf.glyphs, g.box.y_min.toInt ≤ g.box.y_max.toInt
  there : ∀ g ∈ bf.glyphs, g.top + (g.box.y_max.toInt - g.box.y_min.toInt).toNat *
    (g.box.x_max.toInt - g.box.x_min.toInt).toNat ≤ bf.texels.length
  wide : ∀ g ∈ bf.glyphs, ∀ g' ∈ bf.glyphs, g.box.x_max.toInt - g'.box.x_min.toInt < 32768
  tall : ∀ g ∈ bf.glyphs, ∀ g' ∈ bf.glyphs, g.box.y_max.toInt - g'.box.y_min.toInt < 32768

/-- the value of a hexadecimal digit of source code -/
def digit (c : Byte) : Option Nat :=
  if 48 ≤ c.toNat ∧ c.toNat ≤ 57 then some (c.toNat - 48)
  else if 97 ≤ c.toNat ∧ c.toNat ≤ 102 then some (c.toNat - 87)
  else none

/-- a number in source code: `0`, or `0x` and digits, the highest first -/
def number (s : Str) : Option Nat :=
  if s = str "0" then some 0
  else if s.take 2 = str "0x" then (s.drop 2).foldlM (fun a c => (digit c).map (16 * a + ·)) 0
  else none

/-- the parts between commas -/
def commasFrom (acc : Str) : Str → List Str
  | [] => [acc]
  | c :: t => if c = ch ',' then acc :: commasFrom [] t else commasFrom (acc ++ [c]) t

/-- a list of numbers in source code, with spaces anywhere and perhaps a comma at the end -/
def readList (s : Str) : Option (List Nat) :=
  ((commasFrom [] (s.filter (· ≠ ch ' '))).filter (· ≠ [])).mapM number

/-- the source code, compiled and run: what `unpack()` answers -/
def Source.unpack (s : Source) : Option Font :=
  (readList s.shorts).bind fun cps => (readList s.ulongs).bind fun field =>
    make s.w.toNat s.h.toNat (cps.map (BitVec.ofNat 16)) (field.map (BitVec.ofNat 64))

/-- the point (X, Y) of the character with this code point, in the unpacked font (its glyphs are all of one size:
lib/ui/BitmapFont.fu:21-40) -/
def Font.ink (f : Font) (c : Nat) (X Y : Int) : Byte :=
  Embed.ink f.texels ⟨f.box, (f.codepoints.getD c 0).toNat * f.box.stride.toNat⟩ X Y

end Verif.Embed
