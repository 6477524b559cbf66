import Verif.Basic
import Verif.Loop
/-!
# Model of src/intlit.fu

`u64` is `BitVec 64` (wrapping, as in the emitted C++), sizes are natural numbers (the code stores them in `u8`; all
are at most 255).  `none` is an out-of-bounds access.
-/
namespace Verif.Intlit
open Verif

/-- The messages that `error` can hold (src/intlit.fu:66, 83, 104-105); `none` is the empty string. -/
inductive Msg
  | overflow | ambiguous | oversizedSigned | oversizedUnsigned
  deriving DecidableEq, Repr

/-- src/intlit.fu:6-19 `struct Intlit`. -/
structure Intlit where
  base : Nat
  minsizeI : Nat
  minsizeU : Nat
  minsizeF : Nat
  signed : Bool
  unsigned : Bool
  negative : Bool
  absval : BitVec 64
  error : Option Msg
  deriving DecidableEq, Repr

/-- `error ||= cond && "…"`. -/
def orErr (e : Option Msg) (c : Bool) (m : Msg) : Option Msg :=
  match e with
  | some e => some e
  | none => if c then some m else none

/-- src/intlit.fu:80-112: the overload that takes the parts. -/
def mk (absval : BitVec 64) (negative : Bool) (error : Option Msg) (unsigned signed : Bool) (base : Nat) : Intlit :=
  let error := orErr error (signed && unsigned) .ambiguous
  let sizeval := if negative && absval ≠ 0#64 then absval - 1#64 else absval
  let minsizeI :=
    if sizeval < 0x80#64 then 8
    else if sizeval < 0x8000#64 then 16
    else if sizeval < 0x80000000#64 then 32
    else if sizeval < 0x8000000000000000#64 then 64
    else 128
  let minsizeU :=
    if negative then 255
    else if absval < 0x100#64 then 8
    else if absval < 0x10000#64 then 16
    else if absval < 0x100000000#64 then 32
    else 64
  let minsizeF := if absval < 0x1000000#64 then 32 else 64
  let error :=
    if signed then orErr error (decide (minsizeI > 64)) .oversizedSigned
    else orErr error (decide (minsizeU > 64)) .oversizedUnsigned
  { base, minsizeI, minsizeU, minsizeF, signed, unsigned, negative, absval, error }

/-- src/intlit.fu:49-67: the body of the digit loop; the state is `(absval, error)`. -/
def digitStep (value : Str) (base : BitVec 64) (i : Nat) (s : BitVec 64 × Option Msg) : Option (BitVec 64 × Option Msg) := do
  let c ← value[i]?
  if c = ch '_' then some s
  else
    let ci : BitVec 64 :=
      if Byte.lt c (ch 'a') then c.zeroExtend 64 - (ch '0').zeroExtend 64
      else c.zeroExtend 64 - (ch 'a').zeroExtend 64 + 10#64
    let last := s.1
    let absval := last * base + ci
    some (absval, orErr s.2 (decide (last ≠ absval / base)) .overflow)

/-- src/intlit.fu:29 `c_prefix`. -/
def cPrefix (pvs : Str) : Option Byte := if pvs.length > 1 then pvs[1]? else some 0#8

/-- src/intlit.fu:30-32 `prefix`. -/
def prefixOf (pvs : Str) (c : Byte) : Option Byte :=
  if c = ch 'x' ∨ c = ch 'o' ∨ c = ch 'b' then
    match pvs[0]? with
    | none => none
    | some c0 => some (if c0 = ch '0' then c else 0#8)
  else some 0#8

/-- src/intlit.fu:36 `c_suffix`. -/
def cSuffix (vs : Str) : Option Byte := if vs.length ≠ 0 then vs[vs.length - 1]? else some 0#8

/-- src/intlit.fu:23-76 `Intlit(sign_prefix_value_suffix)`. -/
def parse (text : Str) : Option Intlit := do
  let cSign ← text[0]?
  let sign : Byte := if cSign = ch '-' ∨ cSign = ch '+' then cSign else 0#8
  let pvs := text.drop (if sign ≠ 0#8 then 1 else 0)
  let c ← cPrefix pvs
  let prefix_ ← prefixOf pvs c
  let vs := pvs.drop (if prefix_ ≠ 0#8 then 2 else 0)
  let cSuf ← cSuffix vs
  let suffix : Byte := if cSuf = ch 'u' then cSuf else 0#8
  let value := vs.take (vs.length - (if suffix ≠ 0#8 then 1 else 0))
  let base : BitVec 64 :=
    if prefix_ = ch 'x' then 16#64 else if prefix_ = ch 'o' then 8#64 else if prefix_ = ch 'b' then 2#64 else 10#64
  let (absval, error) ← forUp 0 value.length (0#64, none) (digitStep value base)
  let unsigned := decide (suffix = ch 'u')
  let negative := decide (sign = ch '-')
  let signed := negative || decide (suffix = ch 'i')
  some (mk absval negative error unsigned signed base.toNat)

end Verif.Intlit
