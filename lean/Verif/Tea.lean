import Verif.Basic
import Verif.Loop
/-!
# Model of `lib/tea.fu`
-/
namespace Verif.Tea
open Verif

abbrev U32 := BitVec 32

/-- lib/tea.fu:2-6. -/
structure TEA where
  v0 : U32
  v1 : U32
  deriving DecidableEq

/-- lib/tea.fu:8-11 `u64(tea)`. -/
def TEA.u64 (t : TEA) : BitVec 64 := t.v0.setWidth 64 ||| (t.v1.setWidth 64 <<< 32)

/-- lib/tea.fu:13-19 `non_zero`. -/
def nonZero (t : TEA) : TEA := if t.v0 = 0#32 ∧ t.v1 = 0#32 then { t with v0 := 0xffffffff#32 } else t

/-- lib/tea.fu:27,40,53 `delta`. -/
def delta : U32 := 0x9e3779b9#32

/-- lib/tea.fu:29-34, 42-47, 55-60: the body of the rounds loop, after `sum += delta`. -/
def round (sum : U32) (t : TEA) : TEA :=
  let v0 := t.v0 + (((t.v1 <<< 4) + 0xA341316C#32) ^^^ (t.v1 + sum) ^^^ ((t.v1 >>> 5) + 0xC8013EA4#32))
  let v1 := t.v1 + (((v0 <<< 4) + 0xAD90777D#32) ^^^ (v0 + sum) ^^^ ((v0 >>> 5) + 0x7E95761E#32))
  ⟨v0, v1⟩

/-- lib/tea.fu:24-61: `n` rounds; `r4`, `r8` and `r16` are the same text with `n` = 4, 8 and 16. -/
def rounds : Nat → U32 → TEA → TEA
  | 0, _, t => t
  | n + 1, sum, t => rounds n (sum + delta) (round (sum + delta) t)

/-- lib/tea.fu:24-35. -/
def r4 (t : TEA) : TEA := rounds 4 0#32 t
/-- lib/tea.fu:37-48. -/
def r8 (t : TEA) : TEA := rounds 8 0#32 t
/-- lib/tea.fu:50-61. -/
def r16 (t : TEA) : TEA := rounds 16 0#32 t

/-- lib/tea.fu:66-71 `hash(ref res, other: TEA)`. -/
def hashTea (res other : TEA) : TEA := r16 ⟨res.v0 ^^^ other.v1, res.v1 ^^^ other.v0⟩

/-- lib/tea.fu:73-78 `hash(ref res, v: u64)`. -/
def hashU64 (res : TEA) (v : BitVec 64) : TEA := r16 ⟨res.v0 ^^^ (v >>> 32).setWidth 32, res.v1 ^^^ v.setWidth 32⟩

/-- lib/tea.fu:80-84 `hash(ref res, v: u32)`. -/
def hashU32 (res : TEA) (v : U32) : TEA := r16 ⟨res.v0 ^^^ v, res.v1⟩

/-- lib/tea.fu:89-90 `u8view[.. u32len].view(u32)`, item `i`, on a little-endian machine; `none` out of bounds. -/
def u32At (s : Str) (i : Nat) : Option U32 := do
  let a ← s[4 * i]?
  let b ← s[4 * i + 1]?
  let c ← s[4 * i + 2]?
  let d ← s[4 * i + 3]?
  some (d ++ c ++ b ++ a)

/-- lib/tea.fu:93-98: `for (i = 1; i < u32view.len; i += 2)`. -/
def pairs (s : Str) (len : Nat) (i : Nat) (res : TEA) : Option TEA :=
  if i < len then do
    let x ← u32At s (i - 1)
    let y ← u32At s i
    pairs s len (i + 2) (r16 ⟨res.v0 ^^^ x, res.v1 ^^^ y⟩)
  else some res
termination_by len - i

/-- lib/tea.fu:108-113: the trailing bytes, first byte most significant. -/
def trailing (s : Str) (u32len : Nat) : Option U32 :=
  forUp u32len s.length 0#32 fun i last => do
    let b ← s[i]?
    some ((last <<< 8) ||| b.setWidth 32)

/-- lib/tea.fu:86-121 `hash(ref res, u8view)`. -/
def hashBytes (res : TEA) (s : Str) : Option TEA := do
  let u32len := s.length - s.length % 4
  let len := u32len / 4
  let res ← pairs s len 1 res
  if s.length % 8 ≠ 0 then do
    let res ← (if len % 2 = 1 then do
      let x ← u32At s (len - 1)
      some { res with v0 := res.v0 ^^^ x }
      else some res)
    let last ← trailing s u32len
    some (r16 { res with v1 := res.v1 ^^^ last })
  else some res

/-- lib/tea.fu:142-147: the digit characters of `digest62`. -/
def digit62 (c : BitVec 64) : Byte :=
  if c.toNat < 10 then (c - 0#64 + 48#64).setWidth 8
  else if c.toNat < 36 then (c - 10#64 + 97#64).setWidth 8
  else (c - 36#64 + 65#64).setWidth 8

/-- lib/tea.fu:131-148: `n` digits, least significant first. -/
def digits62 : Nat → BitVec 64 → Str
  | 0, _ => []
  | n + 1, v => digit62 (v % 62#64) :: digits62 n (v / 62#64)

/-- lib/tea.fu:126-151 `digest62(v, chars)`. -/
def digest62 (v : BitVec 64) (chars : Int) : Str := digits62 (if 0 < chars ∧ chars < 11 then chars.toNat else 11) v

/-- lib/tea.fu:163-166: the digit characters of `digest16`. -/
def digit16 (c : BitVec 64) : Byte :=
  if c.toNat < 10 then (c - 0#64 + 48#64).setWidth 8 else (c - 10#64 + 97#64).setWidth 8

/-- lib/tea.fu:158-167: `n` digits, least significant first. -/
def digits16 : Nat → BitVec 64 → Str
  | 0, _ => []
  | n + 1, v => digit16 (v % 16#64) :: digits16 n (v / 16#64)

/-- lib/tea.fu:153-170 `digest16(v, chars)`. -/
def digest16 (v : BitVec 64) (chars : Int) : Str := digits16 (if 0 < chars ∧ chars < 16 then chars.toNat else 16) v

/-- lib/tea.fu:175-180 `hash(u8view)`, and 182-194 the digests of it. -/
def hash (s : Str) : Option TEA := hashBytes ⟨0#32, 0#32⟩ s
/-- lib/tea.fu:182-187 `hash62`. -/
def hash62 (s : Str) (chars : Int := 11) : Option Str := (hash s).map fun t => digest62 t.u64 chars
/-- lib/tea.fu:189-194 `hash16`. -/
def hash16 (s : Str) (chars : Int := 16) : Option Str := (hash s).map fun t => digest16 t.u64 chars

end Verif.Tea
