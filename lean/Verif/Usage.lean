import Verif.Basic
/-!
# Model of `src/usage.fu`: usage masks of nested fields

`Quals` is `u32` (src/module.fu:3-4); nothing depends on that, so the width `w` is a parameter, at least 4.
Three low bits are tags, the others are usage bits.
-/
namespace Verif.Usage

/-- src/usage.fu:6-10 `q_TAGS`. -/
def tags (w : Nat) : BitVec w := 7#w
/-- src/usage.fu:11 `q_USAGE = ~q_TAGS`. -/
def usageMask (w : Nat) : BitVec w := ~~~ (tags w)
/-- src/usage.fu:13-14 `q_USAGE_bitsize`. -/
def bitsize (w : Nat) : Nat := w - 3

/-- src/usage.fu:51-52, 65-66 `while (offset >= q_USAGE_bitsize) offset -= q_USAGE_bitsize`. -/
def reduce (w : Nat) (offset : Nat) : Nat :=
  if _h : w ≤ 3 then offset
  else if offset ≥ bitsize w then reduce w (offset - bitsize w) else offset
termination_by offset
decreasing_by unfold bitsize at *; omega

/-- src/usage.fu:46-58 `USAGE_shiftRight`, for a non-negative offset (shifting by a negative amount is undefined). -/
def shiftRight {w : Nat} (quals : BitVec w) (offset : Nat) : BitVec w :=
  let keep := quals &&& tags w
  let usage := quals &&& usageMask w
  let offset := reduce w offset
  let usage := (usage >>> offset) ||| (usage <<< (bitsize w - offset))
  keep ||| (usage &&& usageMask w)

/-- src/usage.fu:60-72 `USAGE_shiftLeft`. -/
def shiftLeft {w : Nat} (quals : BitVec w) (offset : Nat) : BitVec w :=
  let keep := quals &&& tags w
  let usage := quals &&& usageMask w
  let offset := reduce w offset
  let usage := (usage <<< offset) ||| (usage >>> (bitsize w - offset))
  keep ||| (usage &&& usageMask w)

/-- src/usage.fu:25-31 `getMaxUsage(flatCount)`, for a non-negative count. -/
def getMaxUsage (w : Nat) (flatCount : Nat) : BitVec w :=
  if flatCount ≥ bitsize w then usageMask w
  else (usageMask w >>> (bitsize w - flatCount)) &&& usageMask w

/-- src/usage.fu:33-36 `getRegionUsage`. -/
def getRegionUsage (w : Nat) (flatOffset flatCount : Nat) : BitVec w := shiftLeft (getMaxUsage w flatCount) flatOffset

/-- src/usage.fu:74-77 `USAGE_structUsageFromFieldUsage`. -/
def structFromField {w : Nat} (quals : BitVec w) (memberFlatOffset : Nat) : BitVec w := shiftLeft quals memberFlatOffset

/-- src/usage.fu:79-86 `USAGE_fieldUsageFromStructUsage`. -/
def fieldFromStruct {w : Nat} (quals structUsage : BitVec w) (memberFlatOffset memberFlatCount : Nat) : BitVec w :=
  let quals := quals &&& ~~~ usageMask w
  let quals := quals ||| structUsage
  let quals := shiftRight quals memberFlatOffset
  quals &&& (tags w ||| getMaxUsage w memberFlatCount)

end Verif.Usage
