import Verif.Basic
/-!
# Legacy comparison and search - include/fu/vec/LEGACY_cmp.h, include/fu/vec/LEGACY_find.h

A vector, string or view is here what `data()` and `size()` give: an address and a number of items, in a memory shared by
all of them.  Sizes are `i32` and not negative; here natural numbers, so `s0 - s1` does not overflow.
-/
namespace Verif.Cmp
open Verif

/-- the memory -/
abbrev Mem := Nat → Byte

/-- `data()` and `size()` -/
structure View where
  data : Nat
  size : Nat
  deriving DecidableEq

/-- `n` bytes from `a` on -/
def bytes (m : Mem) (a n : Nat) : Str := (List.range n).map fun i => m (a + i)

/-- <cstring> `memcmp`: unsigned bytes.  The standard fixes only the sign; here the difference of the first two that differ. -/
def memcmp (m : Mem) (a b : Nat) : Nat → Int
  | 0 => 0
  | n + 1 => if m a ≠ m b then ((m a).toNat : Int) - (m b).toNat else memcmp m (a + 1) (b + 1) n

/-- include/fu/vec/LEGACY_cmp.h:16-29 (`operator==`) -/
def eq (m : Mem) (a b : View) : Bool :=
  let diff := decide (a.size ≠ b.size)
  let same := decide (a.data = b.data) || (!diff && decide (a.size = 0))
  let cheap := same || diff
  if cheap then same else decide (memcmp m a.data b.data a.size = 0)

/-- include/fu/vec/LEGACY_cmp.h:31-35 (`operator!=`) -/
def ne (m : Mem) (a b : View) : Bool := !eq m a b

/-- include/fu/vec/LEGACY_cmp.h:46-52 (`strcmp`) -/
def strcmp (m : Mem) (a b : View) : Int :=
  let s := if a.size < b.size then a.size else b.size
  let cmp := memcmp m a.data b.data s
  let dif := (a.size : Int) - b.size
  if cmp ≠ 0 then cmp else dif

/-- include/fu/vec/LEGACY_cmp.h:54-57 (`operator<`) -/
def lt (m : Mem) (a b : View) : Bool := decide (strcmp m a b < 0)
/-- include/fu/vec/LEGACY_cmp.h:59-62 (`operator>`) -/
def gt (m : Mem) (a b : View) : Bool := decide (strcmp m a b > 0)
/-- include/fu/vec/LEGACY_cmp.h:64-67 (`operator<=`) -/
def le (m : Mem) (a b : View) : Bool := decide (strcmp m a b ≤ 0)
/-- include/fu/vec/LEGACY_cmp.h:69-72 (`operator>=`) -/
def ge (m : Mem) (a b : View) : Bool := decide (strcmp m a b ≥ 0)

/-! ### LEGACY_find.h, byte items -/

/-- <string.h> `memmem`, from offset `k` on: the offset of the first match in the `hn` bytes at `h` of the `nn` bytes at `n` -/
def memmem (m : Mem) (h hn n nn : Nat) (k : Nat) : Option Nat :=
  if k + nn ≤ hn then
    if memcmp m (h + k) n nn = 0 then some k else memmem m h hn n nn (k + 1)
  else none
termination_by hn + 1 - k

/-- include/fu/vec/LEGACY_find.h:14-32 (`lfind`) -/
def lfind (m : Mem) (h n : View) : Int :=
  match memmem m h.data h.size n.data n.size 0 with
  | some k => k
  | none => -1

/-- include/fu/vec/LEGACY_find.h:34-55 (`lfind` from `start`); `none`: the assertion fails -/
def lfindFrom (m : Mem) (h n : View) (start : Int) : Option Int :=
  if ¬ (start ≥ 0 ∧ start ≤ h.size) then none
  else
    let start := if start > 0 then start else 0
    let start := if start < h.size then start else h.size
    match memmem m (h.data + start.toNat) (h.size - start).toNat n.data n.size 0 with
    | some k => some (start + k)
    | none => some (-1)

/-- include/fu/vec/LEGACY_find.h:57-82 (`lfind` from `start` to `end`); `none`: an assertion fails -/
def lfindIn (m : Mem) (h n : View) (start stop : Int) : Option Int :=
  let size : Int := h.size
  if ¬ (start ≥ 0 ∧ start ≤ size) then none
  else
    let start := if start > 0 then start else 0
    let start := if start < size then start else size
    if ¬ (stop ≥ start ∧ stop ≤ size) then none
    else
      let size := if size < stop then size else stop
      let size := if size > 0 then size else 0
      match memmem m (h.data + start.toNat) (size - start).toNat n.data n.size 0 with
      | some k => some (start + k)
      | none => some (-1)

/-- include/fu/vec/LEGACY_find.h:100-108, 141-149: the loop of `lmatch` and `rmatch` -/
def sameBytes (m : Mem) (search match_ : Nat) : Nat → Bool
  | 0 => true
  | n + 1 => if m search ≠ m match_ then false else sameBytes m (search + 1) (match_ + 1) n

/-- include/fu/vec/LEGACY_find.h:93-94, 134-135: `start` brought into range -/
def clamp (start : Int) (size : Nat) : Int :=
  let start := if start ≥ 0 then start else 0
  if start ≤ size then start else size

/-- include/fu/vec/LEGACY_find.h:84-109 (`lmatch`) -/
def lmatch (m : Mem) (h n : View) (start : Int) : Bool :=
  let start := clamp start h.size
  if (n.size : Int) > h.size - start then false
  else sameBytes m n.data (h.data + start.toNat) n.size

/-- include/fu/vec/LEGACY_find.h:118-123 (`has`) -/
def has (m : Mem) (h n : View) : Bool := decide (lfind m h n ≠ -1)

/-- include/fu/vec/LEGACY_find.h:125-150 (`rmatch`) -/
def rmatch (m : Mem) (h n : View) (start : Int) : Bool :=
  let start := clamp start h.size
  if (n.size : Int) > h.size - start then false
  else sameBytes m n.data (h.data + (h.size - start).toNat) n.size

end Verif.Cmp
