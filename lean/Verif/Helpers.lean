import Verif.Basic
import Verif.Loop
/-!
# Model of `src/helpers.fu`: decimal and variable-length integers, trimming, padding

`str.len` and offsets are `i32`; they are natural numbers here.
-/
namespace Verif.Helpers
open Verif

/-- How a call can go wrong: a fu exception, or undefined behaviour (out-of-bounds access, over-wide shift). -/
inductive Err where
  | thrown | ub
  deriving DecidableEq

/-- src/helpers.fu:93-107 `parse10u32(ref offset, str)`: returns the value and the new offset.  `c.u32 - '0'.u32` is
`uint32_t` arithmetic; the comparisons are on (signed) `char`. -/
def parse10u32 (s : Str) (offset : Nat) (result : BitVec 32 := 0#32) : BitVec 32 × Nat :=
  if h : offset < s.length then
    let c := s[offset]
    if Byte.lt c (ch '0') || Byte.lt (ch '9') c then (result, offset)
    else parse10u32 s (offset + 1) (result * 10#32 + (c.setWidth 32 - 48#32))
  else (result, offset)
termination_by s.length - offset

/-- src/helpers.fu:109-119 `parse10s32(ref offset, str)`; the product is `i32` (two's complement word). -/
def parse10s32 (s : Str) (offset : Nat) : BitVec 32 × Nat :=
  if h : offset < s.length then
    if s[offset] = ch '-' then
      let (r, o) := parse10u32 s (offset + 1)
      (r * (-1#32), o)
    else
      let (r, o) := parse10u32 s offset
      (r * 1#32, o)
  else (0#32, offset)

/-- src/helpers.fu:134-143: the loop of `parseVarint`; `c` is the last byte read.  Shifting a `u32` by 32 or more is
undefined in the emitted C++. -/
def parseVarintLoop (s : Str) (offset : Nat) (shift : Nat) (result : BitVec 32) (c : Byte) :
    Except Err (Nat × Nat × BitVec 32 × Byte) :=
  if h : offset < s.length then
    let c := s[offset]
    if c.toNat ≥ 128 then
      if shift ≥ 32 then .error .ub
      else parseVarintLoop s (offset + 1) (shift + 7) (result ||| ((c.setWidth 32 &&& 0x7f#32) <<< shift)) c
    else .ok (offset + 1, shift, result, c)
  else .ok (offset, shift, result, c)
termination_by s.length - offset

/-- src/helpers.fu:132-151 `parseVarint(ref offset, str)`: the value and the new offset. -/
def parseVarint (s : Str) (offset : Nat) : Except Err (BitVec 32 × Nat) := do
  let (offset, shift, result, c) ← parseVarintLoop s offset 0 0#32 0#8
  let sub ← (
    if Byte.le (ch '0') c && Byte.le c (ch '9') then .ok 48#32
    else if Byte.le (ch 'A') c && Byte.le c (ch 'Z') then .ok (65#32 - 10#32)
    else if Byte.le (ch '_') c && Byte.le c (ch 'z') then .ok (95#32 - 36#32)
    else .error .thrown : Except Err (BitVec 32))
  if shift ≥ 32 then .error .ub
  else .ok (result ||| ((c.setWidth 32 - sub) <<< shift), offset)

/-- src/helpers.fu:153-166 `appendVarint(ref str, v)`: the string afterwards. -/
def appendVarint (s : Str) (v : BitVec 32) : Str :=
  if _h : v.toNat ≥ 64 then
    appendVarint (s ++ [(v ||| 0x80#32).setWidth 8]) (v >>> 7)
  else
    let add := if v.toNat < 10 then 48#32 else if v.toNat < 36 then 65#32 - 10#32 else 95#32 - 36#32
    s ++ [(v + add).setWidth 8]
termination_by v.toNat
decreasing_by
  rw [BitVec.toNat_ushiftRight, Nat.shiftRight_eq_div_pow]; omega

/-- src/helpers.fu:201-203: step `k` of the inner loop `for (last = str.len; last-- >= first; )`, in which
`last = str.len - 1 - k`; `none` is an out-of-bounds read. -/
def trimBack (s : Str) (first k : Nat) (_ : Unit) : Option (Unit ⊕ Str) :=
  let last := s.length - 1 - k
  if k < s.length then do
    let c ← s[last]?
    some (if Byte.lt (ch ' ') c then .inr ((s.take (last + 1)).drop first) else .inl ())
  else none

/-- src/helpers.fu:197-206 `trim(str)`. -/
def trim (s : Str) : Option Str := do
  let r ← forBrk 0 s.length () fun first () => do
    let c ← s[first]?
    if Byte.lt (ch ' ') c then forBrk 0 (s.length + 1 - first) () (trimBack s first)
    else some (.inl ())
  some (match r with | .inr x => x | .inl () => [])

/-- src/helpers.fu:290-291: `while (pad.len < needed) pad ~= pad`, `none` when it never ends. -/
def growPad (pad : Str) (needed : Nat) : Option Str :=
  if _h : pad.length < needed then
    if _h0 : pad.length = 0 then none
    else growPad (pad ++ pad) needed
  else some pad
termination_by needed - pad.length
decreasing_by simp only [List.length_append]; omega

/-- src/helpers.fu:284-295 `leftpad(str, minw, pad)`. -/
def leftpad (s : Str) (minw : Int) (pad : Str := List.replicate 15 (ch ' ')) : Option Str :=
  if (s.length : Int) ≥ minw then some s
  else do
    let needed := (minw - s.length).toNat
    let pad ← growPad pad needed
    some (pad.take needed ++ s)

end Verif.Helpers
