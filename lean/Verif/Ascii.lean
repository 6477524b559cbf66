import Verif.Basic
import Verif.Loop
/-!
# Model of `lib/ascii.fu`

Comparisons are on signed `char` and `byte(c.int + …)` goes through `int(u8(c))` (see the emitted lib/ascii.fu.cpp), so
the addition is done on the unsigned value and truncated.
-/
namespace Verif.Ascii
open Verif

/-- lib/ascii.fu:46-51 `upper(c: byte)`. -/
def upperB (c : Byte) : Byte :=
  if Byte.le (ch 'a') c && Byte.le c (ch 'z') then
    BitVec.ofInt 8 ((c.toNat : Int) + (((ch 'A').toNat : Int) - ((ch 'a').toNat : Int)))
  else c

/-- lib/ascii.fu:53-58 `lower(c: byte)`. -/
def lowerB (c : Byte) : Byte :=
  if Byte.le (ch 'A') c && Byte.le c (ch 'Z') then
    BitVec.ofInt 8 ((c.toNat : Int) + (((ch 'a').toNat : Int) - ((ch 'A').toNat : Int)))
  else c

/-- lib/ascii.fu:22-32 `upper(str)`, and the in-place `to_upper` (lines 2-10), which has the same loop. -/
def upper (s : Str) : Option Str :=
  forUp 0 s.length s fun i s => do
    let c ← s[i]?
    if Byte.le (ch 'a') c && Byte.le c (ch 'z') then
      some (s.set i (BitVec.ofInt 8 ((c.toNat : Int) + (((ch 'A').toNat : Int) - ((ch 'a').toNat : Int)))))
    else some s

/-- lib/ascii.fu:34-44 `lower(str)`, and the in-place `to_lower` (lines 12-20). -/
def lower (s : Str) : Option Str :=
  forUp 0 s.length s fun i s => do
    let c ← s[i]?
    if Byte.le (ch 'A') c && Byte.le c (ch 'Z') then
      some (s.set i (BitVec.ofInt 8 ((c.toNat : Int) + (((ch 'a').toNat : Int) - ((ch 'A').toNat : Int)))))
    else some s

/-- lib/ascii.fu:62-65: the first index holding a character above `' '`, or the length. -/
def trimStart (s : Str) (start : Nat) : Nat :=
  if h : start < s.length then
    if Byte.lt (ch ' ') s[start] then start else trimStart s (start + 1)
  else start
termination_by s.length - start

/-- lib/ascii.fu:67-70 `for (; end --> start; ) if (str[end] > ' ') break;`: the value of `end + 1` afterwards.  `none` is
an out-of-bounds read.  When the loop runs out, `end` was decremented once more, so `end + 1 = start`. -/
def trimEnd (s : Str) (start : Nat) : Nat → Option Nat
  | 0 => some 0
  | e + 1 =>
    if e + 1 > start then do
      let c ← s[e]?
      if Byte.lt (ch ' ') c then some (e + 1) else trimEnd s start e
    else some (e + 1)

/-- lib/ascii.fu:60-73 `trim(str)`: the slice `str[start .. end + 1]`. -/
def trim (s : Str) : Option Str := do
  let start := trimStart s 0
  let stop ← trimEnd s start s.length
  some ((s.take stop).drop start)

end Verif.Ascii
