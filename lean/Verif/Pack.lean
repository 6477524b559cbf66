import Verif.Basic
/-!
# Model of the 16-byte vector header

`include/fu/vec.h:28-219`.  The header is modelled as its 16 raw bytes on a little-endian machine
(`fu_LITTLE_ENDIAN`; the big-endian layout is not modelled): bytes 0-7 `big.data`, 8-11 `big.size`,
12-15 `big.PACK`.  A small vector stores its items in the same bytes, starting at byte 0.
-/
namespace Verif.Pack
open Verif

/-- The compile-time constants of `fu::vec<T>` that shape the header. -/
structure Cfg where
  /-- `sizeof(T)` -/
  sz : Nat
  /-- `alignof(T)` -/
  align : Nat
  /-- include/fu/vec.h:28-29 `TRIVIAL` -/
  trivial : Bool
  /-- include/fu/vec.h:31-34 `COPIABLE` = `SHAREABLE` -/
  copiable : Bool

/-- include/fu/vec.h:38-41 `SMALL_CAPA` (`VEC_SIZE` is 16, `alignof(T*)` is 8). -/
def Cfg.smallCapa (c : Cfg) : Nat := if c.trivial && decide (c.align ≤ 8) then (16 - 1) / c.sz else 0

/-- include/fu/vec.h:43 `HAS_SMALL`. -/
def Cfg.hasSmall (c : Cfg) : Bool := c.smallCapa != 0

/-- include/fu/vec.h:49-50 `PACK_CAPA` on a little-endian target. -/
def Cfg.packed (c : Cfg) : Bool := c.hasSmall && decide (c.sz < 4)

/-- include/fu/vec.h:52 `IS_BIG_MASK`. -/
def Cfg.isBigMask (c : Cfg) : BitVec 32 := if c.packed then 0x0f000000#32 else 0xf#32

/-- include/fu/vec.h:53 `SMALL_SIZE_OFFSET`. -/
def Cfg.smallSizeOffset (c : Cfg) : Nat := if c.packed then 28 else 4

/-- The 16 bytes of the header, by address. -/
abbrev Raw := Nat → Byte

/-- Little-endian 32-bit load at byte `o`. -/
def word (r : Raw) (o : Nat) : BitVec 32 := 
  ((r (o + 3)).setWidth 32 <<< 24) ||| ((r (o + 2)).setWidth 32 <<< 16) |||
  ((r (o + 1)).setWidth 32 <<< 8) ||| (r o).setWidth 32

/-- Little-endian 32-bit store at byte `o`. -/
def setWord (r : Raw) (o : Nat) (w : BitVec 32) : Raw := fun k =>
  if k = o then w.extractLsb' 0 8 else if k = o + 1 then w.extractLsb' 8 8
  else if k = o + 2 then w.extractLsb' 16 8 else if k = o + 3 then w.extractLsb' 24 8 else r k

/-- `big.PACK`, include/fu/vec.h:65-68. -/
def pack (r : Raw) : BitVec 32 := word r 12

/-- include/fu/vec.h:91-94 `UNSAFE__Unpack`. -/
def unpackW (c : Cfg) (p : BitVec 32) : BitVec 32 := if c.packed then (p <<< 8) ||| (p >>> 24) else p

/-- include/fu/vec.h:96-99 `UNSAFE__Pack`. -/
def packW (c : Cfg) (a : BitVec 32) : BitVec 32 := if c.packed then (a <<< 24) ||| (a >>> 8) else a

/-- include/fu/vec.h:118-121 `small()`. -/
def small (c : Cfg) (r : Raw) : Bool := c.hasSmall && decide (pack r &&& c.isBigMask = 0#32)

/-- include/fu/vec.h:123 `SIGN_BIT`. -/
def signBit : BitVec 32 := 0x80000000#32

/-- include/fu/vec.h:125-132 `capa()`, a signed 32-bit word: negative means shared. -/
def capa (c : Cfg) (r : Raw) : BitVec 32 :=
  if c.hasSmall then
    (if small c r then BitVec.ofNat 32 c.smallCapa else unpackW c (pack r))
  else pack r

/-- include/fu/vec.h:134-139 `shared_capa()`. -/
def sharedCapa (c : Cfg) (r : Raw) : BitVec 32 := if c.copiable then capa c r &&& ~~~signBit else capa c r

/-- include/fu/vec.h:141-146 `UNSAFE__MarkUnique`. -/
def markUnique (c : Cfg) (r : Raw) : Raw := setWord r 12 (packW c (sharedCapa c r))

/-- include/fu/vec.h:148-153 `UNSAFE__MarkShared`. -/
def markShared (c : Cfg) (r : Raw) : Raw := setWord r 12 (packW c (unpackW c (pack r) ||| signBit))

/-- include/fu/vec.h:155-160 `UNSAFE__WriteBig`; the 64-bit pointer is written as two words. -/
def writeBig (c : Cfg) (r : Raw) (dataLo dataHi size cap : BitVec 32) : Raw :=
  setWord (setWord (setWord (setWord r 0 dataLo) 4 dataHi) 8 size) 12 (packW c cap)

/-- include/fu/vec.h:162-166 `UNSAFE__Reset`. -/
def reset (r : Raw) : Raw := setWord (setWord (setWord (setWord r 0 0#32) 4 0#32) 8 0#32) 12 0#32

/-- include/fu/vec.h:170-173 `UNSAFE__ReadSmallSize` (arithmetic shift, then mask). -/
def readSmallSize (c : Cfg) (r : Raw) : BitVec 32 :=
  if c.hasSmall then ((pack r).sshiftRight c.smallSizeOffset) &&& 0xf#32 else 0#32

/-- include/fu/vec.h:175-182 `UNSAFE__WriteSmall`. -/
def writeSmall (c : Cfg) (r : Raw) (n : BitVec 32) : Raw :=
  if c.packed then fun k => if k = 15 then (n <<< 4).setWidth 8 else r k
  else setWord r 12 ((n &&& 0xf#32) <<< c.smallSizeOffset)

/-- include/fu/vec.h:194-201 `size()`. -/
def size (c : Cfg) (r : Raw) : BitVec 32 :=
  if c.hasSmall then (if small c r then readSmallSize c r else word r 8) else word r 8

/-- Writing item bytes through the inline data pointer `(T*)this` (include/fu/vec.h:213-219): bytes `0 .. n-1`
of the header become the item bytes. -/
def writeInline (r : Raw) (n : Nat) (content : Nat → Byte) : Raw := fun k => if k < n then content k else r k

end Verif.Pack
