import Verif.Basic
/-!
# Model of integer-to-decimal formatting

`include/fu/decstr.cpp` (the C++ runtime, linked into every program) and its fu twin `lib/decstr.fu`.
-/
namespace Verif.Decstr
open Verif

/-- include/fu/decstr.cpp:10-15 (= lib/decstr.fu:9-13): the `do … while (num)` loop.  `res.insert(0, c)` puts
the digit in front.  `fu::byte(d + '0')` truncates the 64-bit sum to a byte. -/
def u64decLoop (num : BitVec 64) (res : Str) : Str :=
  let d := num % 10#64
  let num' := num / 10#64
  let res' := (d + 48#64).setWidth 8 :: res
  if num' = 0#64 then res' else u64decLoop num' res'
termination_by num.toNat
decreasing_by
  rename_i h
  have e : (num / 10#64).toNat = num.toNat / 10 := by rw [BitVec.toNat_udiv]; rfl
  have : num.toNat / 10 ≠ 0 := by
    intro h0; apply h; apply BitVec.eq_of_toNat_eq; exact e.trans h0
  show (num / 10#64).toNat < num.toNat
  omega

/-- include/fu/decstr.cpp:6-18 `fu::u64dec`. -/
def u64dec (num : BitVec 64) : Str := u64decLoop num []

/-- include/fu/decstr.cpp:20-33 `fu::i64dec`; `int64_t` is a 64-bit word read as two's complement. -/
def i64dec (num : BitVec 64) : Str :=
  if num.slt 0#64 then
    if num = 0x8000000000000000#64 then str "-9223372036854775808"
    else ch '-' :: u64dec (-num)
  else u64dec num

end Verif.Decstr
