import Verif.Basic
/-! # The bitmap font parser

lib/ui/BDF.fu:3-300 (`parse`), lib/ui/BitmapFont.fu:3-41 (`each`), lib/ui/Font.fu:2-9 (`aabb16`, `width`, `height`, `stride`).

Numbers of texels are natural numbers here (the code has 32 bits). Errors are kept as values, not as text. Left out: the
metrics in the head of the file (83-94, 105-116; `FONT_ASCENT` and so on), which are only copied. -/
namespace Verif.Bdf

/-- lib/ui/Font.fu:2-5 -/
structure Box where
  x_min : BitVec 16
  x_max : BitVec 16
  y_min : BitVec 16
  y_max : BitVec 16
  deriving DecidableEq, Repr

def Box.zero : Box := ⟨0, 0, 0, 0⟩

/-- lib/ui/Font.fu:7-9 -/
def Box.width (b : Box) : Int := (b.x_max - b.x_min).toInt
def Box.height (b : Box) : Int := (b.y_max - b.y_min).toInt
def Box.stride (b : Box) : Int := b.width * b.height

/-- lib/ui/BitmapFont.fu:11-14 -/
structure Glyph where
  box : Box
  top : Nat
  deriving DecidableEq, Repr

inductive Why where
  | noCodepoint | incompleteBitmap | noAdvance | codepointRange | boundsAgain | empty | noBounds | incompletePrevious
  | codepointAgain | advanceAgain | emptyFile | noNewlines | noCharacters | announcedMore | announcedFewer
  deriving DecidableEq, Repr

/-- lib/ui/BDF.fu:38-48: line, codepoint if set, reason -/
structure Err where
  line : Nat
  codepoint : Option (BitVec 32)
  why : Why
  deriving DecidableEq, Repr

/-- lib/ui/BDF.fu:14-21 (`CharState`) -/
structure Cur where
  codepoint : BitVec 32
  box : Box
  top : Nat
  row : BitVec 16
  advance : BitVec 16
  didCodepoint : Bool
  didBox : Bool
  bitmap : Bool
  deriving DecidableEq, Repr

def Cur.init : Cur := ⟨0, .zero, 0, 0, 0, false, false, false⟩

structure St where
  codepoints : List (BitVec 16)
  advance : List (BitVec 16)
  glyphs : List Glyph
  texels : List Byte
  cur : Cur
  monoAdvance : BitVec 16
  monoBounds : Box
  chars : BitVec 32
  lineNo : Nat
  errors : List Err
  deriving DecidableEq, Repr

/-- lib/ui/BDF.fu:38-48 -/
def St.error (s : St) (w : Why) : St :=
  { s with errors := s.errors ++ [⟨s.lineNo, if s.cur.didCodepoint then some s.cur.codepoint else none, w⟩] }

/-- lib/ui/BDF.fu:75-96 (`next_i32`): the number and what is left of the line -/
def nextLoop (first neg : Bool) (res : BitVec 32) : Str → BitVec 32 × Str
  | [] => (if neg then -res else res, [])
  | c :: cs =>
    if c < ch '0' ∨ c > ch '9' then
      if first && c == ch '-' then nextLoop first true res cs
      else (if neg then -res else res, cs)
    else nextLoop false neg (res * 10 + (c.zeroExtend 32 - (ch '0').zeroExtend 32)) cs

def next (args : Str) : BitVec 32 × Str := nextLoop true false 0 args

/-- `[]=` with a bounds check -/
def put (texels : List Byte) (i : Int) (v : Byte) : Option (List Byte) :=
  if 0 ≤ i ∧ i < texels.length then some (texels.set i.toNat v) else none

/-- lib/ui/BDF.fu:184-187 -/
def putBits (texels : List Byte) (i : Int) (hex : BitVec 32) : Nat → Option (List Byte)
  | 0 => some texels
  | n + 1 =>
    match put texels i (if hex &&& 8#32 ≠ 0 then 255 else 0) with
    | none => none
    | some texels => putBits texels (i + 1) (hex <<< 1) n

/-- lib/ui/BDF.fu:176-178 (the code compares signed bytes, which for these bounds is the same) -/
def hexDigit (c : Byte) : Option (BitVec 32) :=
  if ch '0' ≤ c ∧ c ≤ ch '9' then some (c.zeroExtend 32 - (ch '0').zeroExtend 32)
  else if ch 'A' ≤ c ∧ c ≤ ch 'F' then some (c.zeroExtend 32 - (ch 'A').zeroExtend 32 + 10)
  else none

/-- lib/ui/BDF.fu:173-190 -/
def putRow (texels : List Byte) (i0 : Int) (expect : Nat) : Str → Option (List Byte)
  | [] => some texels
  | c :: cs =>
    match hexDigit c with
    | none => putRow texels i0 expect cs
    | some hex =>
      match putBits texels i0 hex (if expect < 4 then expect else 4) with
      | none => none
      | some texels =>
        putRow texels (i0 + (if expect < 4 then expect else 4 : Nat)) (expect - (if expect < 4 then expect else 4)) cs

/-- `grow`: pad with zeroes -/
def growTo {n : Nat} (l : List (BitVec n)) (k : Nat) : List (BitVec n) := l ++ List.replicate (k - l.length) 0

/-- lib/ui/BDF.fu:128-156 -/
def endChar (s : St) : St :=
  let c := s.cur
  if c.didCodepoint = false then { s.error .noCodepoint with cur := .init }
  else if c.row.toInt ≠ c.box.height then { s.error .incompleteBitmap with cur := .init }
  else if c.advance = 0 then { s.error .noAdvance with cur := .init }
  else if c.codepoint.toInt < 0 ∨ c.codepoint.toInt > 0xffff then { s.error .codepointRange with cur := .init }
  else { s with
    codepoints := (growTo s.codepoints (c.codepoint.toNat + 1)).set c.codepoint.toNat (BitVec.ofNat 16 s.advance.length)
    advance := s.advance ++ [c.advance]
    glyphs := s.glyphs ++ [⟨c.box, c.top⟩]
    cur := .init }

/-- lib/ui/BDF.fu:157-192 -/
def bitmapRow (s : St) (line : Str) : Option St :=
  let c := s.cur
  let s' : St := { s with cur := { c with row := c.row + 1 } }
  if c.row.toInt < c.box.height then
    match putRow s.texels (c.top + c.box.width * c.row.toInt) c.box.width.toNat line with
    | none => none
    | some texels => some { s' with texels := texels }
  else some s'

/-- lib/ui/BDF.fu:193-222 -/
def setBox (s : St) (args : Str) : St :=
  if s.cur.didBox then s.error .boundsAgain
  else
    let w := next args
    let h := next w.2
    let x := next h.2
    let y := next x.2
    let x_min := x.1.truncate 16
    let y_min := y.1.truncate 16
    let box : Box := ⟨x_min, x_min + w.1.truncate 16, y_min, y_min + h.1.truncate 16⟩
    let s : St := { s with cur := { s.cur with box := box } }
    let s : St := if box.width ≤ 0 ∨ box.height ≤ 0 then
      { s.error .empty with cur := { s.cur with box := .zero } } else s
    let invalid : Box := ⟨1, 1, 1, 1⟩
    let s : St := if s.monoBounds = .zero then { s with monoBounds := if s.cur.box = .zero then invalid else s.cur.box }
      else if s.cur.box ≠ s.monoBounds then { s with monoBounds := invalid } else s
    { s with cur := { s.cur with didBox := true } }

/-- lib/ui/BDF.fu:223-239 -/
def startBitmap (s : St) : St :=
  if s.cur.didBox = false then s.error .noBounds
  else { s with
    cur := { s.cur with bitmap := true, top := s.texels.length }
    texels := growTo s.texels (s.texels.length + s.cur.box.stride.toNat) }

/-- lib/ui/BDF.fu:257-269 -/
def setAdvance (s : St) (args : Str) : St :=
  if s.cur.advance ≠ 0 then s.error .advanceAgain
  else
    let a := (next args).1.truncate 16
    let m := if s.monoAdvance = 0 then (if a = 0 then -1 else a) else if s.monoAdvance ≠ a then -1 else s.monoAdvance
    { s with cur := { s.cur with advance := a }, monoAdvance := m }

/-- lib/ui/BDF.fu:240-246 -/
def startChar (s : St) : St := if s.cur ≠ .init then { s.error .incompletePrevious with cur := .init } else s

/-- lib/ui/BDF.fu:247-256 (`chars_mode` is never 0 here) -/
def setCode (s : St) (args : Str) : St :=
  if s.cur.didCodepoint then s.error .codepointAgain
  else { s with cur := { s.cur with codepoint := (next args).1, didCodepoint := true } }

/-- lib/ui/BDF.fu:105-107: `CHARS` in the head of the file -/
def setChars (s : St) (args : Str) : St := { s with chars := if (next args).1 = 0 then 1 else (next args).1 }

/-- lib/ui/BDF.fu:272 -/
def St.bump (s : St) : St := { s with lineNo := s.lineNo + 1 }

/-- lib/ui/BDF.fu:100-272: one line; `none` is an index out of bounds -/
def step (s : St) (line cmd args : Str) : Option St :=
  if s.chars = 0 then
    if cmd = str "CHARS" then some (setChars s args).bump else some s.bump
  else if cmd = str "ENDCHAR" then some (endChar s).bump
  else if s.cur.bitmap then (bitmapRow s line).map St.bump
  else if cmd = str "BBX" then some (setBox s args).bump
  else if cmd = str "BITMAP" then some (startBitmap s).bump
  else if cmd = str "STARTCHAR" then some (startChar s).bump
  else if cmd = str "ENCODING" then some (setCode s args).bump
  else if cmd = str "DWIDTH" then some (setAdvance s args).bump
  else some s.bump

/-- lib/ui/BDF.fu:51-275: the loop over the bytes. `idx0` is where the line starts, `space` its first space (0: none). -/
def scan (src : Str) (s : St) (idx0 space idx : Nat) : Str → Option St
  | [] => some s
  | c :: rest =>
    if c ≠ ch '\n' then
      scan src s idx0 (if c = ch ' ' ∧ space = 0 then idx else space) (idx + 1) rest
    else
      let line := (src.drop idx0).take (idx - idx0)
      let cmd := line.take (if space > idx0 then space - idx0 else line.length)
      let args := line.drop (if space > idx0 then space - idx0 + 1 else line.length)
      match step s line cmd args with
      | none => none
      | some s => scan src s (idx + 1) 0 (idx + 1) rest

def St.init : St := ⟨[], [], [], [], .init, 0, .zero, 0, 1, []⟩

structure Font where
  codepoints : List (BitVec 16)
  monoAdvance : BitVec 16
  advance : List (BitVec 16)
  texels : List Byte
  monoBounds : Box
  glyphs : List Glyph
  errors : List Err
  deriving DecidableEq, Repr

/-- lib/ui/BDF.fu:277-300 -/
def finish (src : Str) (s : St) : Font :=
  let s := if src = [] then s.error .emptyFile
    else if s.lineNo < 2 then s.error .noNewlines
    else if s.codepoints = [] then s.error .noCharacters
    else if (s.advance.length : Int) < s.chars.toInt then s.error .announcedMore
    else if (s.advance.length : Int) > s.chars.toInt then s.error .announcedFewer
    else s
  let mono := (s.texels.length : Int) = s.monoBounds.stride * s.glyphs.length
  { codepoints := s.codepoints
    monoAdvance := if s.monoAdvance.toInt > 0 then s.monoAdvance else 0
    advance := if s.monoAdvance.toInt > 0 then [] else s.advance
    texels := s.texels
    monoBounds := if mono then s.monoBounds else .zero
    glyphs := if mono then [] else s.glyphs
    errors := s.errors }

/-- lib/ui/BDF.fu:3-300, into an empty font -/
def parse (src : Str) : Option Font := (scan src .init 0 0 0 src).map (finish src)

/-- lib/ui/BitmapFont.fu:21-41 (`each`): the glyphs as their visitor sees them; `none` is a slice out of bounds -/
def Font.each (f : Font) : Option (List (Box × List Byte)) :=
  let count := if f.monoBounds.stride ≠ 0 then ((f.texels.length : Int).tdiv f.monoBounds.stride).toNat else f.glyphs.length
  (List.range count).mapM fun (i : Nat) =>
    let top : Int := if f.monoBounds.stride ≠ 0 then (i : Int) * f.monoBounds.stride else ((f.glyphs.getD i ⟨.zero, 0⟩).top : Int)
    let box := if f.monoBounds.stride ≠ 0 then f.monoBounds else (f.glyphs.getD i ⟨.zero, 0⟩).box
    if 0 ≤ top ∧ top ≤ top + box.stride ∧ top + box.stride ≤ f.texels.length then
      some (box, (f.texels.drop top.toNat).take box.stride.toNat)
    else none

end Verif.Bdf
