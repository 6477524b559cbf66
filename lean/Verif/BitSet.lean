import Verif.Loop
import Mathlib.Data.List.Sort
/-!
# Model of lib/BitSet.fu

A `BitSet` is its `_data: u8[]`, a list of bytes (the array operations `grow`, `resize`, `shrink`, `[]` used on it are
those of include/fu/vec.h, whose list-level behaviour is proved in `VecOps.lean`).  An `int` argument is a 32-bit word.
`none` is the run-time fault of an out-of-bounds index.
-/
namespace Verif.BitSet

/-- lib/BitSet.fu:2-5 `struct BitSet { _data: u8[] }`. -/
abbrev Data := List (BitVec 8)

/-- `int.MIN` (0x80000000). -/
def intMin : BitVec 32 := BitVec.intMin 32

/-- lib/BitSet.fu:14-15, 33-34, 88-89, 99-100: `no_neg = idx & int.MIN; bucket = idx >> 3 | no_neg` (`>>` of an `int` is
the arithmetic shift). -/
def bucketOf (idx : BitVec 32) : Int := ((idx.sshiftRight 3) ||| (idx &&& intMin)).toInt

/-- lib/BitSet.fu:35-36, 90-91, 101-102: `bit = idx & 7; mask = 1 << bit.u8`. -/
def maskOf (idx : BitVec 32) : BitVec 8 := 1#8 <<< (idx &&& 7#32).toNat

/-- include/fu/view.h, vec.h `operator[]`: bounds-checked read. -/
def get (d : Data) (i : Int) : Option (BitVec 8) := if i < 0 then none else d[i.toNat]?

/-- bounds-checked write through `operator[]`. -/
def put (d : Data) (i : Int) (b : BitVec 8) : Option Data :=
  if i < 0 then none else if i.toNat < d.length then some (d.set i.toNat b) else none

/-- include/fu/vec.h `grow` (see `Vec.grow_ok`): appends zeroes up to the length `n`, never shrinks. -/
def grow (d : Data) (n : Int) : Data := d ++ List.replicate (n.toNat - d.length) 0

/-- include/fu/vec.h `shrink` and `resize` to a smaller length (see `Vec.shrink_ok`, `Vec.resize_ok`). -/
def shrink (d : Data) (n : Int) : Data := d.take n.toNat

/-- lib/BitSet.fu:68-71 the loop `end = len; while (end --> 0) if (_data[end]) break`: the value of `end` after it, as an
index one past the last nonzero byte (`end + 1`). -/
def fitEnd (d : Data) : Nat → Nat
  | 0 => 0
  | n + 1 => if (d[n]?).getD 0 ≠ 0 then n + 1 else fitEnd d n

/-- lib/BitSet.fu:66-74 `_shrink_to_fit`. -/
def shrinkToFit (d : Data) : Data := shrink d (fitEnd d d.length)

/-- lib/BitSet.fu:7-10 `clear()`. -/
def clear (_ : Data) : Data := []

/-- lib/BitSet.fu:12-29 `clear(start: idx)`. -/
def clearFrom (d : Data) (idx : BitVec 32) : Option Data :=
  let bucket := bucketOf idx
  let idxFlr := bucket * 8
  let shr := if idx.toInt > idxFlr then bucket + 1 else bucket
  let d1 := if (d.length : Int) > shr then shrink d shr else d
  if (d1.length : Int) > bucket then
    let rem := idx.toInt - idxFlr
    match get d1 bucket with
    | none => none
    | some b =>
      match put d1 bucket (b &&& ~~~(0xff#8 <<< rem.toNat)) with
      | none => none
      | some d2 => some (shrinkToFit d2)
  else some (shrinkToFit d1)

/-- lib/BitSet.fu:31-47 `add(idx)`: the new set and "was it absent". -/
def add (d : Data) (idx : BitVec 32) : Option (Data × Bool) :=
  let bucket := bucketOf idx
  let mask := maskOf idx
  let d1 := if (d.length : Int) ≤ bucket then grow d (bucket + 1) else d
  match get d1 bucket with
  | none => none
  | some entry =>
    match put d1 bucket (entry ||| mask) with
    | none => none
    | some d2 => some (d2, decide (entry &&& mask = 0))

/-- The body of the loop lib/BitSet.fu:56-57 `_data[i] |= other._data[i]`. -/
def orBody (other : Data) (i : Nat) (d : Data) : Option Data := do
  let a ← get d i
  let b ← get other i
  put d i (a ||| b)

/-- lib/BitSet.fu:49-58 `add(other)`, and lib/BitSet.fu:60-64 `|=` which returns its left operand after it. -/
def addAll (d other : Data) : Option Data :=
  let n := other.length
  let d1 := if d.length < n then grow d n else d
  forUp 0 n d1 (orBody other)

/-- The body of the loop lib/BitSet.fu:79-80 `_data[i] &= ~other._data[i]`. -/
def andNotBody (other : Data) (i : Nat) (d : Data) : Option Data := do
  let a ← get d i
  let b ← get other i
  put d i (a &&& ~~~b)

/-- lib/BitSet.fu:76-84 `remove(other)`. -/
def removeAll (d other : Data) : Option Data :=
  let n := min d.length other.length
  match forUp 0 n d (andNotBody other) with
  | none => none
  | some d1 => some (if n = d1.length then shrinkToFit d1 else d1)

/-- lib/BitSet.fu:86-95 `has(idx)`. -/
def has (d : Data) (idx : BitVec 32) : Option Bool :=
  let bucket := bucketOf idx
  if (d.length : Int) > bucket then
    match get d bucket with
    | none => none
    | some b => some (decide (b &&& maskOf idx ≠ 0))
  else some false

/-- lib/BitSet.fu:97-127 `remove(idx)`: the new set and "was it present". -/
def remove (d : Data) (idx : BitVec 32) : Option (Data × Bool) :=
  let bucket := bucketOf idx
  let mask := maskOf idx
  if (d.length : Int) > bucket then
    match get d bucket with
    | none => none
    | some item =>
      if item &&& mask ≠ 0 then
        match put d bucket (item &&& ~~~mask) with
        | none => none
        | some d1 =>
          if item = mask ∧ (d1.length : Int) = bucket + 1 then some (shrinkToFit d1, true) else some (d1, true)
      else some (d, false)
  else some (d, false)

/-- The body of lib/BitSet.fu:137-138 `_data[i] = 0xff`. -/
def fillBody (i : Nat) (d : Data) : Option Data := put d i 0xff#8

/-- lib/BitSet.fu:144-146 `do tail |= 1 << (i & 7).u8; while (++i < end)`, `n` iterations from `i`. -/
def tailBits (i : Nat) : Nat → BitVec 8 → BitVec 8
  | 0, t => t
  | n + 1, t => tailBits (i + 1) n (t ||| 1#8 <<< (i % 8))

/-- lib/BitSet.fu:129-150 `add_range(end)`.  `(end + 7) >> 3` is computed on 32-bit words (it wraps within 7 of
`int.MAX`). -/
def addRange (d : Data) (e : BitVec 32) : Option Data :=
  let noNeg := e &&& intMin
  let floorBytes := ((e.sshiftRight 3) ||| noNeg).toInt
  let ceilBytes := (((e + 7#32).sshiftRight 3) ||| noNeg).toInt
  let d1 := grow d ceilBytes
  match forUp 0 floorBytes.toNat d1 fillBody with
  | none => none
  | some d2 =>
    if ceilBytes > floorBytes then
      let i := (floorBytes * 8).toNat
      put d2 floorBytes (tailBits i (max 1 (e.toInt.toNat - i)) 0)
    else some d2

/-- lib/bit.fu `popcount(u64)`, a compiler builtin: the number of one bits. -/
def popcount64 (w : BitVec 64) : Nat := (List.range 64).countP fun i => w.getLsbD i

/-- `_data[.. N << 3].view(u64)` (lib/BitSet.fu:156-157): the `i`-th little-endian 64-bit word over the bytes. -/
def wordAt (d : Data) (i : Nat) : BitVec 64 :=
  ((d.drop (8 * i)).take 8).foldr (fun b acc => acc <<< 8 ||| b.setWidth 64) 0

/-- lib/BitSet.fu:162-165 `tail <<= 8; tail |= _data[i].u64`. -/
def tailBody (d : Data) (i : Nat) (tail : BitVec 64) : Option (BitVec 64) := do
  let b ← get d i
  some (tail <<< 8 ||| b.setWidth 64)

/-- lib/BitSet.fu:158-159 `sum += bit::popcount(u64s[i])`. -/
def sumBody (d : Data) (i : Nat) (sum : Nat) : Option Nat := some (sum + popcount64 (wordAt d i))

/-- lib/BitSet.fu:152-169 `popcount`.  The sum is a natural number here (an `int` in the code). -/
def popcount (d : Data) : Option Nat := do
  let n := d.length / 8
  let sum ← forUp 0 n 0 (sumBody d)
  let tail ← forUp (n * 8) d.length 0 (tailBody d)
  some (sum + popcount64 tail)

/-- lib/BitSet.fu:176-181 the inner loop of `each`: `if (item & (1 << b)) visit(i << 3 | b)`; `σ` is the visitor's
state. -/
def visitBody {σ : Type} (visit : Nat → σ → Option σ) (i : Nat) (item : BitVec 8) (b : Nat) (s : σ) : Option σ :=
  if item &&& (1#8 <<< b) ≠ 0 then visit (i <<< 3 ||| b) s else some s

/-- lib/BitSet.fu:173-182 the outer loop of `each`. -/
def eachBody {σ : Type} (d : Data) (visit : Nat → σ → Option σ) (i : Nat) (s : σ) : Option σ := do
  let item ← get d i
  if item ≠ 0 then forUp 0 8 s (visitBody visit i item) else some s

/-- lib/BitSet.fu:171-183 `each(visit)`. -/
def each {σ : Type} (d : Data) (visit : Nat → σ → Option σ) (s : σ) : Option σ := forUp 0 d.length s (eachBody d visit)

/-- lib/BitSet.fu:188-196 `negated(end)`. -/
def negated (bitset : Data) (e : BitVec 32) : Option Data := do
  let r ← addRange [] e
  removeAll r bitset

/-- lib/BitSet.fu:207-208 `if (a._data[i] & b._data[i]) return true`. -/
def interBody (a b : Data) (i : Nat) (s : Unit) : Option (Unit ⊕ Bool) := do
  let x ← get a i
  let y ← get b i
  some (if x &&& y ≠ 0 then .inr true else .inl s)

/-- lib/BitSet.fu:201-211 `has_inter`. -/
def hasInter (a b : Data) : Option Bool :=
  match forBrk 0 (min a.length b.length) () (interBody a b) with
  | none => none
  | some (.inr r) => some r
  | some (.inl _) => some false

/-- lib/BitSet.fu:219-220 `if (~a._data[i] & b._data[i]) return true`. -/
def missingBody (a b : Data) (i : Nat) (s : Unit) : Option (Unit ⊕ Bool) := do
  let x ← get a i
  let y ← get b i
  some (if ~~~x &&& y ≠ 0 then .inr true else .inl s)

/-- lib/BitSet.fu:213-223 `has_missing`. -/
def hasMissing (a b : Data) : Option Bool :=
  if a.length < b.length then some true
  else
    match forBrk 0 a.length () (missingBody a b) with
    | none => none
    | some (.inr r) => some r
    | some (.inl _) => some false

end Verif.BitSet
