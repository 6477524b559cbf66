import Verif.Basic
/-!
# Scopes: what a name refers to - src/scope.fu, and the scope bookkeeping of src/solver.fu

Positions and lengths are `i32`; here integers (the theorems ask for fewer than 2^28 - 1 items, so nothing overflows).
A function's `fn` argument is replaced by the list of its calls.  `none` is a fault: an exception, an index out of bounds
or a loop that does not end.
-/
namespace Verif.Scope
open Verif

/-- src/scope.fu:11-15 (`ScopeSkip`): positions from `start` up to but not including `stop` (`end`) are hidden -/
structure ScopeSkip where
  start : Int
  stop : Int
  deriving DecidableEq, Repr

/-- src/module.fu:241-245 (`ScopeItem`) -/
structure Item where
  id : Str
  packed : BitVec 64
  deriving DecidableEq, Repr

/-- src/scope.fu:20-21 (`target`) -/
def target (si : Item) : BitVec 64 := si.packed &&& 0x3fffffffffffffff#64
/-- src/scope.fu:23-24 (`ScopeItem_shadows`) -/
def shadows (si : Item) : Bool := si.packed &&& 0x8000000000000000#64 != 0#64
/-- src/scope.fu:26-27 (`ScopeItem_canSkipRest`) -/
def canSkipRest (si : Item) : Bool := si.packed &&& 0x4000000000000000#64 != 0#64
/-- src/scope.fu:29-30 (`ScopeItem_canSkipRest_set`) -/
def canSkipRest_set (si : Item) : Item := { si with packed := si.packed ||| 0x4000000000000000#64 }
/-- src/scope.fu:32-33 (`ScopeItem_canSkipRest_clear`) -/
def canSkipRest_clear (si : Item) : Item := { si with packed := si.packed &&& ~~~0x4000000000000000#64 }
/-- src/scope.fu:35-37 (`ScopeItem`) -/
def mkItem (id : Str) (t : BitVec 64) (sh : Bool) : Item :=
  { id := id, packed := t &&& 0x3fffffffffffffff#64 ||| if sh then 0x8000000000000000#64 else 0#64 }

/-! ### exports and imports -/

/-- src/scope.fu:48-70 (`collect` in `Scope_exports`): the items and `pub_cnt`; `ownPub` gives the flags of the module's own
declarations (`scope.overloads[globid - 1].flags & F_PUB`), `modidOf` is `Target.modid` -/
def collect (modidOf : BitVec 64 → Int) (ownPub : BitVec 64 → Bool) (modid : Int) (what : List Item) : List Item × Nat :=
  let go := what.foldl (fun (acc : List Item × List Item) item =>
    if modidOf (target item) ≠ modid then acc
    else
      let item := canSkipRest_clear item
      if ownPub (target item) then (acc.1 ++ [item], acc.2) else (acc.1, acc.2 ++ [item])) ([], [])
  (go.1 ++ go.2, go.1.length)

/-- src/solver.fu:1348-1352 (`pub_or_priv` in `_Scope_import__forceCopy`) -/
def pub_or_priv (isPrivate : Bool) (what : List Item) (pub_count : Nat) : List Item :=
  if isPrivate then what.drop pub_count else what.take pub_count

/-! ### walking the visible items -/

/-- an element, or a fault -/
def get {α : Type} (items : List α) (i : Int) : Option α := if i < 0 then none else items[i.toNat]?

/-- src/scope.fu:140-141: the inner loop of `each`, `n` more turns -/
def visit {α : Type} (items : List α) : Int → Nat → Option (List (α × Int))
  | _, 0 => some []
  | i, n + 1 => do
    let x ← get items i
    let r ← visit items (i + 1) n
    some ((x, i) :: r)

/-- src/scope.fu:133-144: the outer loop of `each` -/
def eachFrom {α : Type} (items : List α) : Int → List ScopeSkip → Option (List (α × Int))
  | _, [] => some []
  | i0, ss :: rest =>
    if ss.stop ≤ i0 then eachFrom items i0 rest
    else do
      let a ← visit items i0 (ss.start - i0).toNat
      let b ← eachFrom items ss.stop rest
      some (a ++ b)

/-- src/scope.fu:124-145 (`each`) -/
def each {α : Type} (items : List α) (scope_skip : List ScopeSkip) (start : Int := 0) : Option (List (α × Int)) :=
  eachFrom items start (scope_skip ++ [⟨items.length, items.length⟩])

/-- src/scope.fu:115-122 (`count`) -/
def count {α : Type} (items : List α) (scope_skip : List ScopeSkip) : Option Nat := (each items scope_skip).map (·.length)

/-- src/scope.fu:152-161: the loop of `reveach`; `rev` holds the skips not yet met, last first -/
def reveachFrom {α : Type} (items : List α) (rev : List ScopeSkip) (i : Nat) : Option (List (α × Int)) :=
  match i with
  | 0 => some []
  | i + 1 =>
    match rev with
    | s :: rest =>
      if (i : Int) = s.stop - 1 then reveachFrom items rest s.start.toNat
      else (items[i]?).bind fun x => (reveachFrom items (s :: rest) i).bind fun r => some ((x, (i : Int)) :: r)
    | [] => (items[i]?).bind fun x => (reveachFrom items [] i).bind fun r => some ((x, (i : Int)) :: r)
termination_by (rev.length, i)

/-- src/scope.fu:147-162 (`reveach`) -/
def reveach {α : Type} (items : List α) (ss : List ScopeSkip) : Option (List (α × Int)) := reveachFrom items ss.reverse items.length

/-! ### lookup -/

/-- src/scope.fu:197-215 (`nextSkip`): the new `scope_iterator` and `skiptrap`; `rev` is `scope_skip`, last first -/
def nextSkip : List ScopeSkip → Int → Int → Int × Int
  | [], it, trap => (it, trap)
  | ss :: rest, it, trap =>
    if it > ss.stop - 1 then (it, ss.stop - 1)
    else nextSkip rest (if it > ss.start - 1 then ss.start - 1 else it) trap

/-- how the loop at src/scope.fu:229-257 ends -/
inductive Scan where
  | fault
  | found (k : Nat) (item : Item)
  | done
  deriving DecidableEq

/-- src/scope.fu:229-257: at most `n` turns -/
def scan (items : List Item) (id : Str) (rev : List ScopeSkip) : Nat → Int → Int → Scan
  | 0, _, _ => .fault
  | n + 1, it, trap =>
    if it > 0 then
      if it - 1 = trap then
        if (nextSkip rev (it - 1) trap).2 ≥ items.length then .fault
        else scan items id rev n ((nextSkip rev (it - 1) trap).1 + 1) (nextSkip rev (it - 1) trap).2
      else
        match get items (it - 1) with
        | none => .fault
        | some item => if item.id = id then .found (it - 1).toNat item else scan items id rev n (it - 1) trap
    else .done

/-- what one call of `search` leaves behind: the items (with flags), the iterator, `shadows`, and what it returns -/
structure Call where
  items : List Item
  it : Int
  shadows : Bool
  target : Option (BitVec 64)
  deriving DecidableEq

/-- src/scope.fu:302-319: extra items -/
def searchExtra (items : List Item) (it : Int) (extra : List (BitVec 64)) : Option Call :=
  let it := if it < 0x70000000 then 0x70000000 + (extra.length : Int) else it
  if it > 0x70000000 ∧ it < 0x7fffffff then
    (get extra (it - 0x70000000 - 1)).map fun t => ⟨items, it - 1, false, some t⟩
  else some ⟨items, it, false, none⟩

/-- src/scope.fu:285-297: the loop over field items, from position `k` down -/
def scanField (field : List Item) (id : Str) : Nat → Option (Nat × Item)
  | 0 => none
  | k + 1 =>
    match field[k]? with
    | none => none
    | some item => if item.id = id then some (k, item) else scanField field id k

/-- src/scope.fu:273-298: field items -/
def searchField (items : List Item) (id : Str) (it : Int) (extra : List (BitVec 64)) (field : List Item) : Option Call :=
  let it := if it < 0x60000000 then 0x60000000 + (field.length : Int) else it
  if it > 0x60000000 ∧ it < 0x6fffffff then
    if it - 0x60000000 > field.length then none
    else
      match scanField field id (it - 0x60000000).toNat with
      | some (k, item) => some ⟨items, 0x60000000 + k, false, some (target item)⟩
      | none => searchExtra items (-1) extra
  else searchExtra items it extra

/-- src/scope.fu:187-270: the items proper, from position `it0` down -/
def searchItems (fuel : Nat) (items : List Item) (id : Str) (it0 : Int) (scope_skip : List ScopeSkip) (extra : List (BitVec 64))
    (field : List Item) : Option Call :=
  let start := nextSkip scope_skip.reverse (it0 - 1) (-1)
  if start.2 ≥ items.length then none
  else
    match scan items id scope_skip.reverse fuel (start.1 + 1) start.2 with
    | .fault => none
    | .found k item =>
      some ⟨items, (if canSkipRest item then 0 else (k : Int)) + 0x10000000, shadows item, some (target item)⟩
    | .done => searchField (if 0 ≤ it0 ∧ it0 < items.length then items.modify it0.toNat canSkipRest_set else items) id (-1) extra field

/-- src/scope.fu:187: the part of `search` the iterator stands in -/
def searchFrom (fuel : Nat) (items : List Item) (id : Str) (it : Int) (scope_skip : List ScopeSkip) (extra : List (BitVec 64))
    (field : List Item) : Option Call :=
  if it > 0x10000000 ∧ it < 0x1fffffff then searchItems fuel items id (it - 0x10000000) scope_skip extra field
  else searchField items id it extra field

/-- src/scope.fu:164-324 (`search`), with at most `fuel` turns of the loop over items -/
def search (fuel : Nat) (items : List Item) (id : Str) (it : Int) (scope_skip : List ScopeSkip) (extra : List (BitVec 64))
    (field : List Item) : Option Call :=
  searchFrom fuel items id (if it < 0x10000000 then 0x10000000 + (items.length : Int) else it) scope_skip extra field

/-- src/scope.fu:344-350, 352-358: one of the loops of the second `search`: `l` starts at position `base`; what is found and
the iterator afterwards -/
def seek (l : List Item) (id : Str) (base it : Nat) : Option (BitVec 64) × Nat :=
  if _h : it < base + l.length then
    match l[it - base]? with
    | none => (none, it)
    | some item => if item.id = id then (some (target item), it + 1) else seek l id base (it + 1)
  else (none, it)
termination_by base + l.length - it

/-- src/scope.fu:337-362 (`search` of another module's items) -/
def searchPub (items field : List Item) (id : Str) (it : Nat) : Option (BitVec 64) × Nat :=
  match seek items id 0 it with
  | (some t, it) => (some t, it)
  | (none, it) => seek field id items.length it

/-- src/solver.fu:2312-2317: that search repeated until it finds nothing more, at most `n` times -/
def searchPubAll (items field : List Item) (id : Str) : Nat → Nat → List (BitVec 64)
  | 0, _ => []
  | n + 1, it =>
    match searchPub items field id it with
    | (none, _) => []
    | (some t, it) => t :: searchPubAll items field id n it

/-! ### the solver's scope discipline -/

/-- src/solver.fu:6830-6844 (`ScopeSkip_push`) -/
def ScopeSkip_push (scope_skip : List ScopeSkip) (start stop : Int) : Option (List ScopeSkip) :=
  if ¬ start ≤ stop then none
  else if stop = start then some scope_skip
  else
    let last := scope_skip.getLast?.getD ⟨0, 0⟩
    if ¬ last.stop ≤ start then none
    else if scope_skip ≠ [] ∧ last.stop = start then some (scope_skip.dropLast ++ [{ last with stop := stop }])
    else some (scope_skip ++ [⟨start, stop⟩])

/-- src/solver.fu:671-686: one hidden stretch of the caller against the callee's; `none` if nothing of it stays hidden -/
def revealOne (loc : ScopeSkip) (last : Int) : List ScopeSkip → Option ScopeSkip
  | [] => some loc
  | e :: rest =>
    let start := if loc.start ≥ last ∧ loc.start < e.start then e.start else loc.start
    if start ≥ loc.stop then none
    else if e.start > loc.stop then some { loc with start := start }
    else revealOne { loc with start := start } e.stop rest

/-- src/solver.fu:662-691 (`reveal` in `LocalScope_union`) -/
def reveal (loc eph : List ScopeSkip) (eph_end : Int) : List ScopeSkip :=
  loc.filterMap fun l => revealOne l 0 (eph ++ [⟨eph_end, 2147483647⟩])

/-- src/solver.fu:502-503 (`Ephemeral.scope_memo`, `.scope_skip`): where a function was declared; only `items` -/
structure Memo where
  len : Nat
  skips : List ScopeSkip
  deriving DecidableEq

/-- a lookup in progress (src/solver.fu:2300-2317): what it looks for, `scope_iterator`, the results so far; `expected` is
not in the code, it is what the theorems compare `results` with -/
structure Iter where
  id : Str
  field : List Item
  extra : List (BitVec 64)
  it : Int
  results : List (BitVec 64 × Bool)
  finished : Bool
  expected : List (BitVec 64 × Bool)
  deriving DecidableEq

/-- one activation: a block or a function being solved.  `len0` is `scope0.items_len`; `skips` is `_ss.items`; `root` is
`_root_scope.items_len`, absent outside functions; `memos` are the functions declared in scopes still open (an absent memo:
declared outside functions).  Simplification: `implicits` and the other tables, which are handled alike, are left out. -/
structure Frame where
  len0 : Nat
  skips : List ScopeSkip
  root : Option Nat
  memos : List (Option Memo)
  iters : List Iter
  deriving DecidableEq

/-- the solver's scope: `_scope.items`, the current activation and those waiting for it -/
structure State where
  items : List Item
  top : Frame
  stack : List Frame
  deriving DecidableEq

/-- what can happen to a scope -/
inductive Op where
  /-- `Scope_set`, src/scope.fu:413-422 -/
  | push (id : Str) (t : BitVec 64) (sh : Bool)
  /-- a function is declared, src/solver.fu:6358-6361 -/
  | declare
  /-- a block is entered, src/solver.fu:5597 -/
  | block
  /-- solving of a declared function starts, src/solver.fu:7371-7397, 7465-7467 -/
  | enter (m : Nat)
  /-- candidates of a declared function are looked up in the union of its scope and this one, src/solver.fu:2581-2592;
  nothing is declared meanwhile -/
  | autocall (m : Nat)
  /-- the block, function or autocall ends, src/solver.fu:5598, 7374-7377, 7473, 2592 -/
  | close
  /-- a lookup starts, src/solver.fu:2300-2317 -/
  | look (id : Str) (field : List Item) (extra : List (BitVec 64))
  /-- lookup number `k` of this activation asks for one more, src/solver.fu:2312-2317 -/
  | next (k : Nat)
  deriving DecidableEq

/-- a position is visible if no skip covers it -/
def visible (skips : List ScopeSkip) (i : Nat) : Bool := skips.all fun s => !(decide (s.start ≤ i) && decide ((i : Int) < s.stop))

/-- what a lookup is to find, from the last declared to the first: the visible items of that name, then the fields of that
name, then the extra items -/
def answers (items : List Item) (skips : List ScopeSkip) (id : Str) (field : List Item) (extra : List (BitVec 64)) :
    List (BitVec 64 × Bool) :=
  (((items.zipIdx.filter fun (x, i) => visible skips i && decide (x.id = id)).map fun (x, _) => (target x, shadows x)).reverse) ++
  (((field.filter fun x => decide (x.id = id)).map fun x => (target x, false)).reverse) ++
  ((extra.map fun t => (t, false)).reverse)

/-- most items, fields or extra items a scope can hold: the positions of the three kinds must not run into each other -/
def maxItems : Nat := 0x0ffffffe

/-- what one more `search` does to a lookup -/
def advance (s : State) (i : Iter) : Option (List Item × Iter) :=
  (search (s.items.length + 1) s.items i.id i.it s.top.skips i.extra i.field).map fun c =>
    (c.items, { i with it := c.it, finished := c.target.isNone, results := i.results ++ (c.target.map fun t => (t, c.shadows)).toList })

/-- one step; `none`: not possible here, or a fault -/
def step (s : State) : Op → Option State
  | .push id t sh => if s.items.length < maxItems then some { s with items := s.items ++ [mkItem id t sh] } else none
  | .declare => some { s with top := { s.top with memos := s.top.memos ++ [if s.top.root.isSome then some ⟨s.items.length, s.top.skips⟩ else none] } }
  | .block => some { s with top := { s.top with len0 := s.items.length, iters := [] }, stack := s.top :: s.stack }
  | .enter m => do
    let memo ← s.top.memos[m]?
    match s.top.root with
    | none => some { s with top := { s.top with len0 := s.items.length, root := some s.items.length, iters := [] }, stack := s.top :: s.stack }
    | some r =>
      let start := memo.getD ⟨r, []⟩
      let skips ← ScopeSkip_push start.skips start.len s.items.length
      some { s with top := { s.top with len0 := s.items.length, skips := skips, iters := [] }, stack := s.top :: s.stack }
  | .autocall m => do
    let memo ← s.top.memos[m]?
    let eph := memo.getD ⟨0, []⟩
    some { s with top := { s.top with len0 := s.items.length, skips := reveal s.top.skips eph.skips eph.len, iters := [] }, stack := s.top :: s.stack }
  | .close =>
    match s.stack with
    | [] => none
    | f :: rest => some { items := s.items.take s.top.len0, top := f, stack := rest }
  | .look id field extra =>
    if field.length ≤ maxItems ∧ extra.length ≤ maxItems then
      (advance s ⟨id, field, extra, 0, [], false, answers s.items s.top.skips id field extra⟩).map fun (items, i) =>
        { s with items := items, top := { s.top with iters := s.top.iters ++ [i] } }
    else none
  | .next k =>
    match s.top.iters[k]? with
    | none => none
    | some i =>
      if i.finished then none
      else (advance s i).map fun (items, i') => { s with items := items, top := { s.top with iters := s.top.iters.set k i' } }

/-- the empty scope -/
def init : State := ⟨[], ⟨0, [], none, [], []⟩, []⟩

/-- a history -/
def run (s : State) (ops : List Op) : Option State := ops.foldlM step s

end Verif.Scope
