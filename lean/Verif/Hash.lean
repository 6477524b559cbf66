/-!
# The hash map: `lib/hash.fu`

A Robin-Hood open-addressing index (`index`) over a dense array of entries (`data`); entries with equal hashes are
chained through `collision`.  Every array access of the code goes through `rd`, `wr` or `dat`, which fault with `oob`
when the index is out of range; every unbounded loop carries a fuel argument and faults with `fuel` when it runs out.
A run that ends in `.ok` therefore met no bad access and is a complete run of the code's loop.

Simplification: `int` values are natural numbers here.  `x & mask`, with `mask = len - 1` and `len` a power of two, is
`x % len`, and `(i - hash) & mask`, where the difference may be negative, is `dist`; `Verif.HashArith` proves that both
agree with the 32-bit two's-complement operations of the code.  The length of the index is not cut off at 2^31.
-/
namespace Verif.Hash

/-- How a run can go wrong: an access out of bounds, or a loop that exceeds the iterations the model grants it. -/
inductive Err where
  | oob
  | fuel
deriving DecidableEq, Repr

/-- `struct IndexEntry`, lib/hash.fu:4-7.  `pos` is `data_pos`: one plus an index in `data`, 0 when the slot is free. -/
structure IEnt where
  hash : Nat
  pos : Nat
deriving DecidableEq, Repr

/-- The default-initialised `IndexEntry`, `[]`: a free slot. -/
def IEnt.free : IEnt := ⟨0, 0⟩

/-- `struct DataEntry`, lib/hash.fu:9-14.  `coll` is `collision`: the next entry with the same hash, 0 for none. -/
structure DEnt (K V : Type) where
  key : K
  value : V
  hash : Nat
  coll : Nat
deriving DecidableEq, Repr

/-- `struct Map`, lib/hash.fu:77-81.  The hasher is a parameter of the operations. -/
structure Map (K V : Type) where
  index : List IEnt
  data : List (DEnt K V)
deriving DecidableEq, Repr

/-- A default-initialised `Map`. -/
def Map.empty {K V : Type} : Map K V := ⟨[], []⟩

/-- `a[i]` as a value. -/
def rd {α : Type} (l : List α) (i : Nat) : Except Err α :=
  match l[i]? with
  | some a => .ok a
  | none => .error .oob

/-- `a[i] = v`. -/
def wr {α : Type} (l : List α) (i : Nat) (v : α) : Except Err (List α) :=
  if i < l.length then .ok (l.set i v) else .error .oob

/-- `a.swap(i, j)`. -/
def swap {α : Type} (l : List α) (i j : Nat) : Except Err (List α) := do
  let x ← rd l i
  let y ← rd l j
  let l ← wr l i y
  wr l j x

/-- `map[data_pos]`, lib/hash.fu:106-107: `data[data_pos.int - 1]`; position 0 is `data[-1]`. -/
def dat {K V : Type} (d : List (DEnt K V)) (pos : Nat) : Except Err (DEnt K V) :=
  if pos = 0 then .error .oob else rd d (pos - 1)

/-- `map[data_pos] = v`. -/
def datSet {K V : Type} (d : List (DEnt K V)) (pos : Nat) (v : DEnt K V) : Except Err (List (DEnt K V)) :=
  if pos = 0 then .error .oob else wr d (pos - 1) v

/-- `__builtin_ctz`, lib/bit.fu:8, on a non-zero argument; `fuel` bounds the number of bits looked at. -/
def ctzF : Nat → Nat → Nat
  | 0, _ => 0
  | f + 1, n => if n % 2 = 0 then 1 + ctzF f (n / 2) else 0

/-- `max_probes`, lib/hash.fu:95-96: `index.len && ctz(index.len)`. -/
def maxProbes (len : Nat) : Nat := if len = 0 then 0 else ctzF len len

/-- `(i - hash) & mask`, lib/hash.fu:194, 263, 286 and 307: how far slot `i` lies after the ideal slot of `hash`. -/
def dist (len i hash : Nat) : Nat := (i + len - hash % len) % len

/-- `hash(map, key)`, lib/hash.fu:98-101: negative hashes are complemented.  `h` is `map.hasher.hash(key).digest(int)`. -/
def foldSign (h : Int) : Nat := if h < 0 then (-h - 1).toNat else h.toNat

section
variable {K V : Type} [DecidableEq K]

/-- The bucket walk of `route`, lib/hash.fu:172-190: `do { … } while (data_pos)`.  `none` when the bucket ends. -/
def chainFind (d : List (DEnt K V)) (key : K) : Nat → Nat → Nat → Except Err (Option (Nat × Nat))
  | 0, _, _ => .error .fuel
  | n + 1, pos, coll => do
    let e ← dat d pos
    if e.key = key then .ok (some (pos, coll))
    else if e.coll = 0 then .ok none
    else chainFind d key n e.coll pos

/-- How `route` returns: through `found` (slot, data position, predecessor in the bucket), through `available` (the slot
the search stopped at and the slot `make_fair` will free) or through `unavailable`. -/
inductive Route where
  | found (i pos coll : Nat)
  | avail (i fair : Nat)
  | unavail
deriving DecidableEq, Repr

/-- `fair_i` after a slot taken by another bucket, lib/hash.fu:194-196. -/
def fairUpd (fair : Option Nat) (probe dst i : Nat) : Option Nat :=
  match fair with
  | some f => some f
  | none => if dst < probe then some i else none

/-- The loop of `probe` (lib/hash.fu:122-139) with the body of `route` (lib/hash.fu:156-226).  The first argument is the
number of probes left.  `fair_i == -1` is `none`. -/
def routeLoop (m : Map K V) (key : K) (hash : Nat) : Nat → Nat → Option Nat → Except Err Route
  | 0, _, _ => .ok .unavail
  | left + 1, probe, fair => do
    let i := (hash + probe) % m.index.length
    let e ← rd m.index i
    if e.pos = 0 then .ok (.avail i (fair.getD i))
    else if e.hash = hash then do
      match (← chainFind m.data key m.data.length e.pos 0) with
      | some (p, c) => .ok (.found i p c)
      | none => .ok (.avail i i)
    else routeLoop m key hash left (probe + 1) (fairUpd fair probe (dist m.index.length i e.hash) i)

/-- `route`, lib/hash.fu:141-229. -/
def route (m : Map K V) (key : K) (hash : Nat) : Except Err Route :=
  routeLoop m key hash (maxProbes m.index.length) 0 none

/-- The shifting loop of `make_fair`, lib/hash.fu:206-215, entered with `i != fair_i`. -/
def fairLoop : Nat → List IEnt → Nat → Nat → Except Err (List IEnt)
  | 0, _, _, _ => .error .fuel
  | n + 1, idx, i, fair => do
    let prev := (i + idx.length - 1) % idx.length
    let e ← rd idx prev
    let idx ← wr idx i e
    if prev = fair then wr idx prev IEnt.free else fairLoop n idx prev fair

/-- `make_fair`, lib/hash.fu:202-221: afterwards slot `fair` is the one to use. -/
def makeFair (idx : List IEnt) (i fair : Nat) : Except Err (List IEnt) :=
  if i = fair then .ok idx else fairLoop idx.length idx i fair

/-- `compact`, lib/hash.fu:298-314. -/
def compact : Nat → List IEnt → Nat → Except Err (List IEnt)
  | 0, _, _ => .error .fuel
  | n + 1, idx, free => do
    let i := (free + 1) % idx.length
    let other ← rd idx i
    if dist idx.length i other.hash = 0 ∨ other.pos = 0 then .ok idx
    else do
      let idx ← swap idx i free
      compact n idx i

/-- The search for a free slot, lib/hash.fu:269-278: `none` is `continue :NEXT`. -/
def findFree (idx : List IEnt) (i : Nat) : Nat → Nat → Except Err (Option Nat)
  | 0, _ => .error .fuel
  | n + 1, dst => do
    let e ← rd idx dst
    if e.pos = 0 then .ok (some dst)
    else if (dst + 1) % idx.length = i then .ok none
    else findFree idx i n ((dst + 1) % idx.length)

/-- The second loop, lib/hash.fu:281-289: moves the free slot back past entries that are nearer to their ideal slots. -/
def swapBack (ideal : Nat) : Nat → List IEnt → Nat → Except Err (List IEnt × Nat)
  | 0, _, _ => .error .fuel
  | n + 1, idx, dst =>
    if dst = ideal then .ok (idx, dst)
    else do
      let prev := (dst + idx.length - 1) % idx.length
      let e ← rd idx prev
      if 1 + dist idx.length prev e.hash < dist idx.length dst ideal then do
        let idx ← swap idx dst prev
        swapBack ideal n idx prev
      else .ok (idx, dst)

/-- One pass through the body of the loop of `increase_capacity`, lib/hash.fu:256-294.  The flag tells whether an entry
was moved (then `probe--` undoes the loop's `probe++`). -/
def growStep (oldLen oldProbes maxP : Nat) (idx : List IEnt) (probe : Nat) : Except Err (List IEnt × Bool) := do
  let i := (probe + oldProbes) % oldLen
  let e ← rd idx i
  let ideal := e.hash % idx.length
  let diff := dist idx.length i e.hash
  if (oldLen ≤ ideal ∨ maxP ≤ diff) ∧ e.pos ≠ 0 then do
    match (← findFree idx i idx.length ideal) with
    | none => .ok (idx, false)
    | some dst => do
      let (idx, dst) ← swapBack ideal idx.length idx dst
      let idx ← swap idx i dst
      let idx ← compact (idx.length * idx.length + 1) idx i
      .ok (idx, true)
  else .ok (idx, false)

/-- The loop of `increase_capacity`, lib/hash.fu:254-295. -/
def growLoop (oldLen oldProbes maxP : Nat) : Nat → List IEnt → Nat → Except Err (List IEnt)
  | 0, _, _ => .error .fuel
  | n + 1, idx, probe =>
    if probe < oldLen then do
      let (idx, moved) ← growStep oldLen oldProbes maxP idx probe
      growLoop oldLen oldProbes maxP n idx (if moved then probe else probe + 1)
    else .ok idx

/-- The new length, lib/hash.fu:245. -/
def grownLen (len : Nat) : Nat := max (len * 2) 2

/-- `increase_capacity`, lib/hash.fu:235-296. -/
def increaseCapacity (idx : List IEnt) : Except Err (List IEnt) :=
  let len := grownLen idx.length
  let big := idx ++ List.replicate (len - idx.length) IEnt.free
  growLoop idx.length (maxProbes idx.length) (maxProbes len) (len * len + len + 1) big 0

/-- The value of an entry is handed to `visit` by reference. -/
def modValue (d : List (DEnt K V)) (pos : Nat) (f : V → V) : Except Err (List (DEnt K V)) := do
  let e ← dat d pos
  datSet d pos { e with value := f e.value }

/-- `if_ref`, lib/hash.fu:319-335 and 543-546, with a visitor that rewrites the value with `f`; also returns the value
the visitor was given. -/
def ifRef (m : Map K V) (key : K) (hash : Nat) (f : V → V) : Except Err (Map K V × Option V) := do
  match (← route m key hash) with
  | .found _ pos _ => do
    let e ← dat m.data pos
    let d ← modValue m.data pos f
    .ok (⟨m.index, d⟩, some e.value)
  | _ => .ok (m, none)

/-- The insertion in `ref`, lib/hash.fu:362-376. -/
def insertAt (m : Map K V) (key : K) (hash : Nat) (init : V) (i fair : Nat) : Except Err (Map K V) := do
  let idx ← makeFair m.index i fair
  let e ← rd idx fair
  let d := m.data ++ [⟨key, init, hash, e.pos⟩]
  let idx ← wr idx fair ⟨hash, d.length⟩
  .ok ⟨idx, d⟩

/-- The search loop of `ref`, lib/hash.fu:350-383: the map and the position of the entry of `key` in it. -/
def refLoop (key : K) (hash : Nat) (init : V) : Nat → Map K V → Except Err (Map K V × Nat)
  | 0, _ => .error .fuel
  | n + 1, m => do
    match (← route m key hash) with
    | .found _ pos _ => .ok (m, pos)
    | .avail i fair => do
      let m ← insertAt m key hash init i fair
      .ok (m, m.data.length)
    | .unavail => do
      let idx ← increaseCapacity m.index
      refLoop key hash init n ⟨idx, m.data⟩

/-- `ref`, lib/hash.fu:340-387 and 538-541, with a visitor that rewrites the value with `f`. -/
def refm (m : Map K V) (key : K) (hash : Nat) (f : V → V) (init : V) : Except Err (Map K V) := do
  let (m, pos) ← refLoop key hash init (m.index.length + 2) m
  let d ← modValue m.data pos f
  .ok ⟨m.index, d⟩

/-- The traversal of a bucket in `remove`, lib/hash.fu:453-463. -/
def relinkWalk (last pos : Nat) : Nat → List (DEnt K V) → Nat → Except Err (List (DEnt K V))
  | 0, _, _ => .error .fuel
  | n + 1, d, coll => do
    let e ← dat d coll
    if e.coll = last then datSet d coll { e with coll := pos }
    else relinkWalk last pos n d e.coll

/-- `map.index.probe(…)` in `remove`, lib/hash.fu:440-467: redirects the link to the entry that moved from position `last`
to `pos`. -/
def relink (m : Map K V) (hash last pos : Nat) : Nat → Nat → Except Err (Map K V)
  | 0, _ => .ok m
  | left + 1, probe => do
    let i := (hash + probe) % m.index.length
    let e ← rd m.index i
    if e.hash ≠ hash ∨ e.pos = 0 then relink m hash last pos left (probe + 1)
    else if e.pos = last then do
      let idx ← wr m.index i { e with pos := pos }
      .ok ⟨idx, m.data⟩
    else do
      let d ← relinkWalk last pos m.data.length m.data e.pos
      .ok ⟨m.index, d⟩

/-- Unlinking in `remove`, lib/hash.fu:413-426. -/
def unlink (m : Map K V) (i pos coll : Nat) : Except Err (Map K V) := do
  let e ← dat m.data pos
  if coll ≠ 0 then do
    let c ← dat m.data coll
    let d ← datSet m.data coll { c with coll := e.coll }
    .ok ⟨m.index, d⟩
  else do
    let s ← rd m.index i
    let idx ← wr m.index i { s with pos := e.coll }
    if e.coll = 0 then do
      let idx ← compact (idx.length * idx.length + 1) idx i
      .ok ⟨idx, m.data⟩
    else .ok ⟨idx, m.data⟩

/-- Closing the gap in `data`, lib/hash.fu:428-471. -/
def fillGap (m : Map K V) (pos : Nat) : Except Err (Map K V) := do
  let last := m.data.length
  if last ≠ pos then do
    let d ← swap m.data (pos - 1) (last - 1)
    let e ← dat d pos
    let m ← relink ⟨m.index, d⟩ e.hash last pos (maxProbes m.index.length) 0
    .ok ⟨m.index, m.data.dropLast⟩
  else .ok ⟨m.index, m.data.dropLast⟩

/-- `remove`, lib/hash.fu:392-477: the map afterwards and the value taken, `none` through `else`. -/
def remove (m : Map K V) (key : K) (hash : Nat) : Except Err (Map K V × Option V) := do
  match (← route m key hash) with
  | .found i pos coll => do
    let e ← dat m.data pos
    let m ← unlink m i pos coll
    let m ← fillGap m pos
    .ok (m, some e.value)
  | _ => .ok (m, none)

/-- `get` with `exists`, lib/hash.fu:486-494. -/
def get (h : K → Int) (m : Map K V) (key : K) : Except Err (Option V) := do
  let (_, r) ← ifRef m key (foldSign (h key)) id
  .ok r

/-- `set`, lib/hash.fu:496-502: `ref` with a visitor that assigns; `dflt` is the default-initialised value. -/
def set (h : K → Int) (dflt : V) (m : Map K V) (key : K) (value : V) : Except Err (Map K V) :=
  refm m key (foldSign (h key)) (fun _ => value) dflt

/-- `remove` by key, lib/hash.fu:504-509. -/
def del (h : K → Int) (m : Map K V) (key : K) : Except Err (Map K V × Option V) :=
  remove m key (foldSign (h key))

/-- `len`, lib/hash.fu:511-514. -/
def len (m : Map K V) : Nat := m.data.length

/-- `clear`, lib/hash.fu:83-87. -/
def clear (_ : Map K V) : Map K V := ⟨[], []⟩

/-- The loop of `each`, lib/hash.fu:516-536.  The visitor has a state of its own, may rewrite the value and may ask for
the pair to be removed. -/
def eachLoop {σ : Type} (visit : σ → K → V → σ × V × Bool) : Nat → Map K V → Nat → σ → Except Err (Map K V × σ)
  | 0, _, _, _ => .error .fuel
  | n + 1, m, i, s =>
    if i < m.data.length then do
      let e ← rd m.data i
      let r := visit s e.key e.value
      let d ← wr m.data i { e with value := r.2.1 }
      if r.2.2 then do
        let (m, _) ← remove ⟨m.index, d⟩ e.key e.hash
        eachLoop visit n m i r.1
      else eachLoop visit n ⟨m.index, d⟩ (i + 1) r.1
    else .ok (m, s)

/-- `each`, lib/hash.fu:516-536. -/
def each {σ : Type} (visit : σ → K → V → σ × V × Bool) (m : Map K V) (s : σ) : Except Err (Map K V × σ) :=
  eachLoop visit (m.data.length + 1) m 0 s
end

/-- `max_dist` before the loop of `Verify`, lib/hash.fu:565-575. -/
def verifyInit (idx : List IEnt) : Nat :=
  match idx.getLast? with
  | none => 0
  | some e => if e.pos = 0 then 0 else dist idx.length (idx.length - 1) e.hash + 1

/-- The assertions of `Verify` about the index, lib/hash.fu:577-589. -/
def verifyLoop (len : Nat) : List IEnt → Nat → Nat → Bool
  | [], _, _ => true
  | e :: es, i, maxDist =>
    if e.pos = 0 then verifyLoop len es (i + 1) 0
    else
      decide (dist len i e.hash < maxProbes len) && decide (dist len i e.hash ≤ maxDist) &&
        verifyLoop len es (i + 1) (dist len i e.hash + 1)

/-- The part of `Verify` that asserts about the index alone, lib/hash.fu:551-589. -/
def verifyIndex (idx : List IEnt) : Bool := verifyLoop idx.length idx 0 (verifyInit idx)

/-- The bucket walk of `Verify`, lib/hash.fu:591-605: `reach` are the bits of `reach_bits`. -/
def verifyChain {K V : Type} (d : List (DEnt K V)) : Nat → List Bool → Nat → Except Err (Option (List Bool))
  | 0, _, _ => .error .fuel
  | n + 1, reach, pos =>
    if pos = 0 then .ok (some reach)
    else do
      let e ← dat d pos
      let b ← rd reach (pos - 1)
      if b then .ok none
      else do
        let reach ← wr reach (pos - 1) true
        verifyChain d n reach e.coll

/-- The walks of all buckets in the loop of `Verify`, lib/hash.fu:577-606. -/
def verifyChains {K V : Type} (d : List (DEnt K V)) : List IEnt → List Bool → Except Err (Option (List Bool))
  | [], reach => .ok (some reach)
  | e :: es, reach => do
    if e.pos = 0 then verifyChains d es reach
    else
      match (← verifyChain d (d.length + 1) reach e.pos) with
      | none => .ok none
      | some reach => verifyChains d es reach

/-- `Verify`, lib/hash.fu:551-610: false when an assertion fails.  Simplification: the assertions about the index are
evaluated before the walks instead of interleaved with them; `reach_actual` is the number of bits set. -/
def verify {K V : Type} (m : Map K V) : Except Err Bool := do
  if verifyIndex m.index then
    match (← verifyChains m.data m.index (List.replicate m.data.length false)) with
    | none => .ok false
    | some reach => .ok (decide (reach.count true = m.data.length))
  else .ok false

end Verif.Hash
