import Verif.Basic
/-!
# Model of the power-of-two allocator

`include/fu/mem/arc.cpp` and the typed front end `fu_ALLOC` of `include/fu/mem/arc.h`.
`std::exit(101)` is the outcome `none`.
-/
namespace Verif.Alloc

/-- include/fu/mem/arc.cpp:9-20 `next_pow2`, on `uint32_t`. -/
def nextPow2 (v : BitVec 32) : BitVec 32 :=
  let v := v - 1#32
  let v := v ||| (v >>> 1)
  let v := v ||| (v >>> 2)
  let v := v ||| (v >>> 4)
  let v := v ||| (v >>> 8)
  let v := v ||| (v >>> 16)
  v + 1#32

/-- include/fu/mem/arc.h:32 `MIN_ALLOC`. -/
def minAlloc : Nat := 128

/-- include/fu/mem/arc.h:30,67 `sizeof(fu_ARC)`. -/
def arcHeader : Nat := 16

/-- include/fu/mem/arc.cpp:24-37 `fu_POW2MEM_RoundUp`.  `bytes` is a `size_t`; `none` is `std::exit(101)`. -/
def roundUp (bytes : Nat) : Option Nat :=
  let rnd := (nextPow2 (BitVec.ofNat 32 bytes)).toNat
  if rnd < bytes ∨ rnd > 0x80000000 then none
  else some (if rnd > minAlloc then rnd else minAlloc)

/-- include/fu/mem/arc.cpp:170-205 `fu_ARC_ALLOC`: the usable bytes returned through `inout_bytes`. -/
def arcAlloc (bytes : Nat) : Option Nat :=
  match roundUp (bytes + arcHeader) with
  | none => none
  | some b => if b - arcHeader > 0x7fffffff then none else some (b - arcHeader)

/-- include/fu/mem/arc.cpp:223-250 `fu_UNIQ_ALLOC`. -/
def uniqAlloc (bytes : Nat) : Option Nat :=
  match roundUp bytes with
  | none => none
  | some b => if b > 0x7fffffff then none else some b

/-- include/fu/mem/arc.h:79-92 `fu_ALLOC<T, SHAREABLE>`: the item count that fits the block. -/
def alloc (sz : Nat) (shareable : Bool) (cnt : Nat) : Option Nat :=
  let cnt := if cnt > 1 then cnt else 1
  match (if shareable then arcAlloc (cnt * sz) else uniqAlloc (cnt * sz)) with
  | none => none
  | some bytes => some (bytes / sz)

/-- include/fu/vec.h:101-114 `EnsureActualLooksBig`: waste a slot when the low nibble of the capacity is zero.
(In both layouts the masked bits of the packed word are the low nibble of the capacity: see `Pack`.) -/
def ensureLooksBig (actual : Nat) : Nat := if actual % 16 = 0 then actual - 1 else actual

/-- include/fu/vec.h:571-576: the capacity `_Splice` records for a freshly allocated block. -/
def vecCapa (sz : Nat) (shareable hasSmall : Bool) (newSize : Nat) : Option Nat :=
  match alloc sz shareable (newSize + (if hasSmall then 1 else 0)) with
  | none => none
  | some c => some (if hasSmall then ensureLooksBig c else c)

/-- include/fu/mem/arc.cpp:216 the byte count `fu_UNIQ_DEALLOC` subtracts from the leak counter when a vector
of capacity `capa` is released. -/
def uniqDeallocBytes (sz capa : Nat) : Option Nat := roundUp (capa * sz)

/-- include/fu/mem/arc.cpp:237 the byte count `fu_UNIQ_ALLOC` added to the leak counter when the vector was allocated. -/
def uniqAllocBytes (sz : Nat) (hasSmall : Bool) (newSize : Nat) : Option Nat :=
  let cnt := newSize + (if hasSmall then 1 else 0)
  uniqAlloc ((if cnt > 1 then cnt else 1) * sz)

end Verif.Alloc
