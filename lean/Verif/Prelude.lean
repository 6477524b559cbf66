import Verif.Basic
import Verif.Loop
/-!
# Model of the algorithms in the language prelude (`src/prelude.fu`)

Array arguments `T[..]` are lists; where the identity of the memory matters (`<>`) they are views into a memory.
Lengths and indices are `int` in the code and natural numbers here (arrays below 2^31 items).
`none` is a fault: an access out of bounds, a failing `assert`, or a loop that does not end.
-/
namespace Verif.Prelude
open Verif

variable {α : Type}

/-! ## Search -/

/-- src/prelude.fu:348-352: `find` for a single item. -/
def findItem [DecidableEq α] (h : List α) (c : α) : Option Int := do
  match ← forBrk 0 h.length () fun i () => do
      let x ← h[i]?
      some (if x = c then .inr i else .inl ()) with
  | .inr i => some (i : Int)
  | .inl () => some (-1)

/-- src/prelude.fu:420-422: `while (haystack[i] != needle_last_char) if (++i == haystack.len) return -1`.
The inner `none` is that `return -1`. -/
def scan [DecidableEq α] (h : List α) (c : α) (i : Nat) : Option (Option Nat) :=
  if hi : i < h.length then
    if h[i] = c then some (some i)
    else if i + 1 = h.length then some none
    else scan h c (i + 1)
  else none
termination_by h.length - i

theorem scan_ge [DecidableEq α] (h : List α) (c : α) (i r : Nat) (e : scan h c i = some (some r)) : i ≤ r ∧ r < h.length := by
  induction hn : h.length - i generalizing i with
  | zero =>
    unfold scan at e
    split at e
    · omega
    · cases e
  | succ n ih =>
    unfold scan at e
    split at e
    · split at e
      · cases e; exact ⟨Nat.le_refl _, by assumption⟩
      · split at e
        · cases e
        · have := ih (i + 1) e (by omega); omega
    · cases e

/-- src/prelude.fu:426-453: the loop over `j`; `false` is a mismatch, `true` a match of the whole needle. -/
def matchRest [DecidableEq α] (h n : List α) (base m1 : Nat) (j : Nat) : Option Bool :=
  if hj : j < n.length then do
    let x ← h[base + j]?
    if x ≠ n[j] then some false
    else if j + 1 = m1 then some true
    else matchRest h n base m1 (j + 1)
  else none
termination_by n.length - j

/-- src/prelude.fu:436-442: `skip = needle.len; for (j = needle_len_m1; j --> 0; ) …`. -/
def skipScan [DecidableEq α] (n : List α) (m1 : Nat) (c : α) : Nat → Option Nat
  | 0 => some n.length
  | j + 1 => do
    let x ← n[j]?
    if x = c then some (m1 - j) else skipScan n m1 c j

/-- src/prelude.fu:415-456: the outer loop.  `skip = 0` means not computed yet; were the computed skip 0 the loop would
not end. -/
def findLoop [DecidableEq α] (h n : List α) (m1 : Nat) (c : α) (skip i : Nat) : Option Int :=
  if i < h.length then
    match e : scan h c i with
    | none => none
    | some none => some (-1)
    | some (some i') =>
      if i' < m1 then none
      else match matchRest h n (i' - m1) m1 0 with
        | none => none
        | some true => some ((i' - m1 : Nat) : Int)
        | some false =>
          match (if skip = 0 then skipScan n m1 c m1 else some skip) with
          | none => none
          | some skip => if skip = 0 then none else findLoop h n m1 c skip (i' + skip)
  else some (-1)
termination_by h.length - i
decreasing_by
  have := scan_ge h c i i' e
  omega

/-- src/prelude.fu:355-456: `find` for an array needle. -/
def findMany [DecidableEq α] (h n : List α) : Option Int :=
  if h.length < n.length ∨ n.length ≤ 0 then some (if n.length ≠ 0 then -1 else 0)
  else if n.length = 1 then do
    let c ← n[0]?
    findItem h c
  else do
    let m1 := n.length - 1
    let c ← n[m1]?
    findLoop h n m1 c 0 m1

/-- The needle is an item or an array (`needle: T[..] or T`, src/prelude.fu:329). -/
inductive Needle (α : Type) where
  | one (c : α)
  | many (l : List α)

/-- The length a needle counts for (src/prelude.fu:615-617, 650). -/
def Needle.len : Needle α → Nat
  | .one _ => 1
  | .many l => l.length

/-- src/prelude.fu:346-457 `find(haystack, needle)`. -/
def find [DecidableEq α] (h : List α) : Needle α → Option Int
  | .one c => findItem h c
  | .many n => findMany h n

/-- include/fu/view.h:295-309 `get_view(v, start, end)`; 267-278 is `end = size`.  A violated `assert` is a fault. -/
def window (l : List α) (start stop : Nat) : Option (List α) :=
  if start ≤ stop ∧ stop ≤ l.length then some ((l.take stop).drop start) else none

/-- src/prelude.fu:329-343 `find(haystack, needle, start, end)`; a missing `end` is `haystack.len`, a missing `start` is
0. -/
def findIn [DecidableEq α] (h : List α) (n : Needle α) (start stop : Nat) : Option Int := do
  let slice ← window h start stop
  let res ← find slice n
  some (res + if res < 0 then 0 else (start : Int))

/-- src/prelude.fu:327 `has`. -/
def has [DecidableEq α] (a : List α) (b : Needle α) : Option Bool := do
  let r ← find a b
  some (decide (r ≥ 0))

/-- src/prelude.fu:462-465, 472-476 `starts`. -/
def starts [DecidableEq α] (a : List α) : Needle α → Option Bool
  | .one c => if a.length ≠ 0 then do some (decide ((← a[0]?) = c)) else some false
  | .many w => if a.length ≥ w.length then do some (decide ((← window a 0 w.length) = w)) else some false

/-- src/prelude.fu:467-470, 478-482 `ends`. -/
def ends [DecidableEq α] (a : List α) : Needle α → Option Bool
  | .one c => if a.length ≠ 0 then do some (decide ((← a[a.length - 1]?) = c)) else some false
  | .many w => if a.length ≥ w.length then do some (decide ((← window a (a.length - w.length) a.length) = w)) else some false

/-! ## `join`, `split`, `replace` -/

/-- `res[pos .. pos + xs.len] .= xs` (include/fu/vec/view_assign.h), in bounds or a fault. -/
def blit (res : List α) (pos : Nat) (xs : List α) : Option (List α) :=
  if pos + xs.length ≤ res.length then some (res.take pos ++ xs ++ res.drop (pos + xs.length)) else none

/-- What `join` takes between the pieces: an item, an array or nothing (src/prelude.fu:610). -/
inductive Sep (α : Type) where
  | one (c : α)
  | many (l : List α)
  | nothing

/-- src/prelude.fu:615-617 `N`. -/
def Sep.len : Sep α → Nat
  | .one _ => 1
  | .many l => l.length
  | .nothing => 0

/-- src/prelude.fu:632-635: writing the separator. -/
def putSep (res : List α) (pos : Nat) : Sep α → Option (List α)
  | .one c => blit res pos [c]
  | .many l => blit res pos l
  | .nothing => some res

/-- src/prelude.fu:620-621. -/
def joinSize (a : List (List α)) (n : Nat) (size : Nat) : Option Nat :=
  forUp 1 a.length size fun i size => do
    let x ← a[i]?
    some (size + (n + x.length))

/-- src/prelude.fu:631-639: the body of the writing loop. -/
def joinStep (a : List (List α)) (sep : Sep α) (i : Nat) (s : List α × Nat) : Option (List α × Nat) := do
  let range ← a[i]?
  let res ← putSep s.1 s.2 sep
  let size := s.2 + sep.len
  let res ← blit res size range
  some (res, size + range.length)

/-- src/prelude.fu:610-643 `join`.  `junk n` is the content of the `n` items that `grow_junk` leaves uninitialised. -/
def join (junk : Nat → List α) (a : List (List α)) (sep : Sep α) : Option (List α) :=
  if a.length < 2 then
    if a.length ≠ 0 then a[0]? else some []
  else do
    let head ← a[0]?
    let size ← joinSize a sep.len head.length
    let res ← blit (junk size) 0 head
    let (res, _) ← forUp 1 a.length (res, head.length) (joinStep a sep)
    some res

/-- src/prelude.fu:651-660: the calls of `each` made by `split` from position `last` on, as
`(substr, first, last)`. -/
def splitFrom [DecidableEq α] (s : List α) (sep : Needle α) (last : Nat) : Option (List (List α × Bool × Bool)) :=
  if h0 : sep.len = 0 then some [(s, true, true)]
  else
    match findIn s sep last s.length with
    | none => none
    | some next =>
      if next ≥ 0 then
        if hl : next.toNat + sep.len ≤ last ∨ s.length < next.toNat + sep.len then none
        else do
          let sub ← window s last next.toNat
          let rest ← splitFrom s sep (next.toNat + sep.len)
          some ((sub, decide (last = 0), false) :: rest)
      else if last ≠ 0 then do
        let sub ← window s last s.length
        some [(sub, false, true)]
      else some [(s, true, true)]
termination_by s.length - last
decreasing_by omega

/-- src/prelude.fu:645-661 `split(str, sep, each)`: the calls of `each`. -/
def splitEach [DecidableEq α] (s : List α) (sep : Needle α) : Option (List (List α × Bool × Bool)) := splitFrom s sep 0

/-- src/prelude.fu:663-668 `split(str, sep)`. -/
def split [DecidableEq α] (s : List α) (sep : Needle α) : Option (List (List α)) := do
  let calls ← splitEach s sep
  some (calls.foldl (fun r c => r ++ [c.1]) [])

/-- The items a replacement stands for. -/
def Needle.items : Needle α → List α
  | .one c => [c]
  | .many l => l

/-- src/prelude.fu:681-686: the body of `replace`'s callback, over the calls; `return str` leaves `replace`. -/
def replaceFold (s w : List α) : List α → List (List α × Bool × Bool) → List α
  | result, [] => result
  | result, (sub, first, last) :: rest =>
    if !first then replaceFold s w ((result ++ w) ++ sub) rest
    else if last then s
    else replaceFold s w (result ++ sub) rest

/-- src/prelude.fu:676-690 `replace(str, all, with)`. -/
def replace [DecidableEq α] (s : List α) (all : Needle α) (w : Needle α) : Option (List α) := do
  let calls ← splitEach s all
  some (replaceFold s w.items [] calls)

/-! ## Comparison -/

/-- A `T[..]`: `len` items of the memory from address `ptr` on (include/fu/view.h). -/
structure View where
  ptr : Nat
  len : Nat

/-- The items a view shows. -/
def View.items (mem : Nat → α) (v : View) : List α := (List.range v.len).map fun i => mem (v.ptr + i)

/-- src/prelude.fu:800: `<>` of primitive values. -/
def cmpPrim (a b : Int) : Int := if a < b then -1 else if a > b then 1 else 0

/-- src/prelude.fu:808-809: `for (i = from; i < a.len && !cmp; i++) cmp = a[i] <> b[i]`. -/
def cmpItems (cmpT : α → α → Int) (mem : Nat → α) (a b : View) (i : Nat) (cmp : Int) : Option Int :=
  if i < a.len ∧ cmp = 0 then
    if i < b.len then cmpItems cmpT mem a b (i + 1) (cmpT (mem (a.ptr + i)) (mem (b.ptr + i))) else none
  else some cmp
termination_by a.len - i

/-- src/prelude.fu:802-812: `<>` of arrays, with the shortcut for equal data pointers. -/
def cmpArr (cmpT : α → α → Int) (mem : Nat → α) (a b : View) : Option Int :=
  let cmp := cmpPrim a.len b.len
  let quick := decide (a.ptr = b.ptr)
  if !quick then cmpItems cmpT mem a b 0 cmp else some cmp

/-- src/prelude.fu:820-830: `<>` of structs with fields `fields`, of which some are `trivial`.  A struct value is a
function from field names to values. -/
def cmpStruct {ι : Type} {V : ι → Type} (cmpF : (i : ι) → V i → V i → Int) (trivial : ι → Bool) (fields : List ι)
    (a b : (i : ι) → V i) : Int :=
  let rec go : List ι → Int → Int
    | [], k => k
    | i :: is, k => let c := cmpF i (a i) (b i); if c ≠ 0 then c else go is k
  go (fields.filter trivial) (go (fields.filter fun i => !trivial i) 0)

/-! ## List functions -/

/-- `a.swap(i, j)` (src/prelude.fu:512, include/fu/vec/view_swap.h). -/
def swap (l : List α) (i j : Nat) : Option (List α) := do
  let a ← l[i]?
  let b ← l[j]?
  some ((l.set i b).set j a)

/-- src/prelude.fu:518-523: the body of `partition`'s loop. -/
def partitionStep (pred : α → Nat → Bool) (i : Nat) (s : List α × Nat) : Option (List α × Nat) := do
  let x ← s.1[i]?
  if !pred x i then do
    let a ← if i > s.2 then swap s.1 i s.2 else some s.1
    some (a, s.2 + 1)
  else some s

/-- src/prelude.fu:514-526 `partition(a, predicate, start)`: the array and the returned `keep`. -/
def partition (a : List α) (pred : α → Nat → Bool) (start : Nat := 0) : Option (List α × Nat) :=
  forUp start a.length (a, start) (partitionStep pred)

/-- src/prelude.fu:549: `remove(a, predicate)` for a type that is not trivial. -/
def removeNontrivial (a : List α) (pred : α → Nat → Bool) : Option (List α) := do
  let (a, keep) ← partition a pred
  some (a.take keep)

/-- src/prelude.fu:854-862 `map`; `junk` is what `grow_junk` leaves behind. -/
def map {β : Type} (junk : Nat → List β) (a : List α) (f : α → Nat → β) : Option (List β) :=
  forUp 0 a.length (junk a.length) fun i res => do
    let x ← a[i]?
    if i < res.length then some (res.set i (f x i)) else none

/-- src/prelude.fu:870-876 `reverse`. -/
def reverse (a : List α) : Option (List α) :=
  let n1 := a.length - 1
  let n2 := a.length / 2
  forUp 0 n2 a fun i a => swap a i (n1 - i)

/-- src/prelude.fu:878-885 `all`. -/
def all (a : List α) (pred : α → Nat → Bool) : Option Bool := do
  match ← forBrk 0 a.length () fun i () => do
      let x ← a[i]?
      some (if !pred x i then .inr false else .inl ()) with
  | .inr b => some b
  | .inl () => some true

/-- src/prelude.fu:887-894 `some`. -/
def some_ (a : List α) (pred : α → Nat → Bool) : Option Bool := do
  match ← forBrk 0 a.length () fun i () => do
      let x ← a[i]?
      some (if pred x i then .inr true else .inl ()) with
  | .inr b => some b
  | .inl () => some false

/-- src/prelude.fu:288-292 `resize(a, len, v)`; `junk n` is what `resize_junk` puts in the `n` new slots. -/
def resize (junk : Nat → List α) (a : List α) (len : Nat) (v : α) : Option (List α) :=
  let a' := a.take len ++ junk (len - a.length)
  forUp a.length len a' fun i a => if i < a.length then some (a.set i v) else none

/-- src/prelude.fu:163-172 `max`, `min`, `clamp` of primitive values. -/
def max' (a b : Int) : Int := if a ≥ b then a else b
/-- src/prelude.fu:167-169. -/
def min' (a b : Int) : Int := if a ≤ b then a else b
/-- src/prelude.fu:171-172. -/
def clamp (v gteq lteq : Int) : Int := max' (min' v lteq) gteq

/-- src/prelude.fu:953-954, 966-967: `swap(ret[i], a[i + start])`. -/
def stealStep (start : Nat) (i : Nat) (s : List α × List α) : Option (List α × List α) := do
  let x ← s.1[i]?
  let y ← s.2[i + start]?
  some (s.1.set i y, s.2.set (i + start) x)

/-- src/prelude.fu:949-958 `steal(a, start)`: `(ret, a)`.  `d` is the default value `resize` fills with.  The unsigned
difference is a fault when `start` is past the end. -/
def stealFrom (d : α) (a : List α) (start : Nat) : Option (List α × List α) :=
  if start ≤ a.length then do
    let n := a.length - start
    let (ret, a) ← forUp 0 n (List.replicate n d, a) (stealStep start)
    some (ret, a.take start)
  else none

/-- src/prelude.fu:960-971 `steal(a, start, end)`: `(ret, a)`. -/
def stealRange (d : α) (a : List α) (start stop : Nat) : Option (List α × List α) := do
  let size := stop - start
  let (ret, a) ← forUp 0 size (List.replicate size d, a) (stealStep start)
  some (ret, a.take start ++ a.drop (start + size))

end Verif.Prelude
