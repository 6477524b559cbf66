import Verif.Pack
import Verif.Alloc
/-!
# Model of `fu::vec<T>` - the copy-on-write vector

`include/fu/vec.h` (whole file) on top of `include/fu/mem/arc.h`.

What is modelled: the storage of every vector (inline or reference-counted heap block), the shared flag, the
reference count, the construction state of every slot, and every operation as the sequence of slot accesses the
C++ performs, in release mode (`NDEBUG`, where the leading `assert`s of `_Splice` vanish and only the explicit
clamping remains).  The bit-level header is modelled separately in `Pack`.

Simplifications (each also noted where it happens):
* Items are opaque values; nested vectors as items are not unfolded.  A slot is `some x` (a live item) or `none`
  (no live item: raw memory, a destroyed or relocated-away item, or an indeterminate trivial value).
* Copying an item never fails and yields an equal item.
* Execution is sequential (the concurrent behaviour of the reference count is modelled in `Arc`).
* Undefined behaviour is the explicit outcome `ub`; `std::exit` from the allocator is the outcome `exit`;
  a bounds-checked access out of range (a read through address 1, vec.h:1158) is the outcome `trap`.
-/
namespace Verif.Vec
open Verif.Pack (Cfg)

/-- Abnormal outcomes. -/
inductive Fault where
  | ub | exit | trap
  deriving DecidableEq, Repr

abbrev M := Except Fault

/-- Slots of a storage area. -/
abbrev Cells (α : Type) := List (Option α)

/-- A heap block: `m_arc` (include/fu/mem/arc.h:34, owners minus one) and its item slots. -/
structure Block (α : Type) where
  arc : Nat
  cells : Cells α

/-- include/fu/vec.h:61-84: a vector header, decoded.  `small` stands for a header whose items are inline (or, for
types without small representation, the null header of an empty vector); in `big` the `shared` flag is the sign
bit of the packed capacity (include/fu/vec.h:123-153). -/
inductive Hdr (α : Type) where
  | small (size : Nat) (cells : Cells α)
  | big (blk size capa : Nat) (shared : Bool)

/-- The heap: live blocks by address, and the next unused address. -/
structure Heap (α : Type) where
  blk : Nat → Option (Block α)
  next : Nat

def Heap.set {α} (h : Heap α) (b : Nat) (x : Option (Block α)) : Heap α :=
  { h with blk := fun i => if i = b then x else h.blk i }

variable {α : Type}

/-- include/fu/vec.h:194-201 `size()`. -/
def Hdr.size : Hdr α → Nat
  | .small n _ => n
  | .big _ n _ _ => n

/-- include/fu/vec.h:184-192 `UNSAFE__WriteSize`. -/
def Hdr.setSize (n : Nat) : Hdr α → Hdr α
  | .small _ cs => .small n cs
  | .big b _ c s => .big b n c s

/-- The default-constructed header (include/fu/vec.h:77,87, all zero) and `UNSAFE__Reset` (162-166). -/
def emptyHdr (cfg : Cfg) : Hdr α := .small 0 (List.replicate cfg.smallCapa none)

/-! ## Slot primitives -/

/-- `n` slots from `a` on. -/
def slice (cs : Cells α) (a n : Nat) : Cells α := (cs.drop a).take n

/-- Overwrite the slots from `a` on with `xs`. -/
def patch (cs : Cells α) (a : Nat) (xs : Cells α) : Cells α := cs.take a ++ xs ++ cs.drop (a + xs.length)

def allSome (cs : Cells α) : Bool := cs.all Option.isSome
def allNone (cs : Cells α) : Bool := cs.all Option.isNone

/-- include/fu/vec.h:790-798 `DESTROY_range`: for non-trivial items every slot must hold a live item. -/
def destroyRange (cfg : Cfg) (cs : Cells α) (a n : Nat) : M (Cells α) :=
  if cfg.trivial then .ok cs
  else if n = 0 then .ok cs
  else if a + n ≤ cs.length && allSome (slice cs a n) then .ok (patch cs a (List.replicate n none))
  else .error .ub

/-- include/fu/vec.h:726-729 `MEMMOVE_range` within one storage.  For non-trivial items this relocates: the source
slots no longer hold an item, and a target slot must not hold one (it would be overwritten without a destructor). -/
def memmove (cfg : Cfg) (cs : Cells α) (d s n : Nat) : M (Cells α) :=
  if d = s ∨ n = 0 then .ok cs
  else if d + n ≤ cs.length ∧ s + n ≤ cs.length then
    let xs := slice cs s n
    if cfg.trivial then .ok (patch cs d xs)
    else
      let cs1 := patch cs s (List.replicate n none)
      if allNone (slice cs1 d n) then .ok (patch cs1 d xs) else .error .ub
  else .error .ub

/-- include/fu/vec.h:721-724 `MEMCPY_range` between two storages; returns (source, target).  Relocation semantics
for non-trivial items as in `memmove`. -/
def memcpy (cfg : Cfg) (src : Cells α) (s : Nat) (dst : Cells α) (d n : Nat) : M (Cells α × Cells α) :=
  if n = 0 then .ok (src, dst)
  else if s + n ≤ src.length ∧ d + n ≤ dst.length then
    let xs := slice src s n
    if cfg.trivial then .ok (src, patch dst d xs)
    else if allNone (slice dst d n) then .ok (patch src s (List.replicate n none), patch dst d xs)
    else .error .ub
  else .error .ub

/-- include/fu/vec.h:731-738 `CPY_ctor_range` (and `MOV_ctor_range` 740-747 from a temporary): trivial items are
copied bytewise; non-trivial ones are copy-constructed from live items into empty slots. -/
def cpyCtor (cfg : Cfg) (src : Cells α) (s : Nat) (dst : Cells α) (d n : Nat) : M (Cells α) :=
  if n = 0 then .ok dst
  else if s + n ≤ src.length ∧ d + n ≤ dst.length then
    let xs := slice src s n
    if cfg.trivial then .ok (patch dst d xs)
    else if allSome xs && allNone (slice dst d n) then .ok (patch dst d xs)
    else .error .ub
  else .error .ub

/-! ## Storage access -/

/-- include/fu/vec.h:213-219 `data()`: the slots a header points at. -/
def cellsOf (h : Heap α) : Hdr α → Option (Cells α)
  | .small _ cs => some cs
  | .big b _ _ _ => (h.blk b).map (·.cells)

def loadCells (h : Heap α) (v : Hdr α) : M (Cells α) :=
  match cellsOf h v with
  | some cs => .ok cs
  | none => .error .ub

/-- Write back the slots of a header. -/
def storeCells (h : Heap α) (v : Hdr α) (cs : Cells α) : M (Heap α × Hdr α) :=
  match v with
  | .small n _ => .ok (h, .small n cs)
  | .big b n c s =>
    match h.blk b with
    | some blk => .ok (h.set b (some { blk with cells := cs }), .big b n c s)
    | none => .error .ub

/-! ## Allocation and release -/

/-- include/fu/vec.h:569-578: allocate a block for `n` items: a fresh address, raw slots, `m_arc` zero
(include/fu/mem/arc.h:79-92, arc.cpp:170-205). -/
def allocBlock (cfg : Cfg) (h : Heap α) (n : Nat) : M (Heap α × Nat × Nat) :=
  match Alloc.vecCapa cfg.sz cfg.copiable cfg.hasSmall n with
  | none => .error .exit
  | some c =>
    .ok ({ blk := fun i => if i = h.next then some ⟨0, List.replicate c none⟩ else h.blk i, next := h.next + 1 },
      h.next, c)

/-- `fu_ARC_DEALLOC` / `fu_UNIQ_DEALLOC`: the block must be live, and for non-trivial items no slot may still hold
an item (its destructor would never run). -/
def freeBlock (cfg : Cfg) (h : Heap α) (b : Nat) : M (Heap α) :=
  match h.blk b with
  | none => .error .ub
  | some blk => if cfg.trivial || allNone blk.cells then .ok (h.set b none) else .error .ub

/-- include/fu/vec.h:260-282 `SHARED__Dealloc(old_data, old_size, shared_capa)` with `decr()` of
include/fu/mem/arc.h:49-55. -/
def sharedDealloc (cfg : Cfg) (h : Heap α) (b size : Nat) : M (Heap α) :=
  match h.blk b with
  | none => .error .ub
  | some blk =>
    if cfg.copiable && blk.arc != 0 then
      .ok (h.set b (some { blk with arc := blk.arc - 1 }))
    else do
      let cs ← destroyRange cfg blk.cells 0 size
      freeBlock cfg (h.set b (some { blk with cells := cs })) b

/-- include/fu/vec.h:298-313 `UNIQ__Dealloc_DontRunDtors`: release without looking at the reference count. -/
def uniqDealloc (cfg : Cfg) (h : Heap α) (b : Nat) : M (Heap α) := freeBlock cfg h b

/-- include/fu/vec.h:394-400 `slow_check_unique(data)` with `unique()` of include/fu/mem/arc.h:57-60. -/
def checkUnique (cfg : Cfg) (h : Heap α) (b : Nat) : M Bool :=
  if !cfg.copiable then .ok true
  else match h.blk b with
    | none => .error .ub
    | some blk => .ok (blk.arc == 0)

/-! ## `_Splice` -/

/-- The template flags of `_Splice`, include/fu/vec.h:409-415. -/
inductive Kind where
  | normal | clear | reserve
  deriving DecidableEq

/-- include/fu/vec.h:690-706 `UNSAFE__Relocate`; returns (old storage, new storage). -/
def relocate (cfg : Cfg) (idx del ins pop : Nat) (new old : Cells α) (oldSize : Nat) : M (Cells α × Cells α) := do
  let (old, new) ← memcpy cfg old 0 new 0 idx
  memcpy cfg old (idx + del) new (idx + ins) (oldSize - (idx + del + pop))

/-- include/fu/vec.h:473-493 and 617-634: destroy the deleted items. -/
def destroyDeleted (cfg : Cfg) (kind : Kind) (cs : Cells α) (oldSize idx del pop : Nat) : M (Cells α) :=
  if kind = .clear then destroyRange cfg cs 0 oldSize
  else do
    let cs ← destroyRange cfg cs idx del
    destroyRange cfg cs (oldSize - pop) pop

/-- include/fu/vec.h:468-509: keep the current storage (which the caller found to be large enough and unshared). -/
def holdGround (cfg : Cfg) (kind : Kind) (h : Heap α) (v : Hdr α) (newSize idx del ins pop : Nat) :
    M (Heap α × Hdr α) := do
  let cs ← loadCells h v
  let cs ← destroyDeleted cfg kind cs v.size idx del pop
  let cs ← (if kind = .clear then .ok cs
            else memmove cfg cs (idx + ins) (idx + del) (v.size - (idx + del + pop)))
  let (h, v) ← storeCells h v cs
  .ok (h, v.setSize newSize)

/-- include/fu/vec.h:555-688: move to other storage.  The result is never null here. -/
def reallocTo (cfg : Cfg) (kind : Kind) (h : Heap α) (v : Hdr α) (newSize idx del ins pop : Nat) :
    M (Heap α × Hdr α) := do
  let oldSize := v.size
  -- vec.h:560-598: new storage
  let (h, nv) ← (if newSize ≤ cfg.smallCapa then
        .ok (h, (.small newSize (List.replicate cfg.smallCapa none) : Hdr α))
      else do
        let (h, b, c) ← allocBlock cfg h newSize
        .ok (h, .big b newSize c false))
  match v with
  | .small _ _ =>
    -- vec.h:582-595 for trivial items; non-trivial small headers are empty and fall through 609-670 with all
    -- ranges empty, which is the same relocation of nothing
    let new ← loadCells h nv
    let old ← loadCells h v
    let (_, new) ← relocate cfg idx del ins pop new old oldSize
    storeCells h nv new
  | .big b _ capa shared =>
    let uniq ← (if cfg.trivial then .ok false
                else if !shared then .ok true
                else if capa < newSize then checkUnique cfg h b
                else .ok false)
    if uniq then do
      -- vec.h:609-647: cheap move
      let old ← loadCells h v
      let old ← destroyDeleted cfg kind old oldSize idx del pop
      let new ← loadCells h nv
      let (old, new) ← (if kind = .clear then .ok (old, new) else relocate cfg idx del ins pop new old oldSize)
      let (h, _) ← storeCells h v old
      let (h, nv) ← storeCells h nv new
      let h ← uniqDealloc cfg h b
      .ok (h, nv)
    else do
      -- vec.h:650-687: copy, then release our reference
      let old ← loadCells h v
      let new ← loadCells h nv
      let new ← (if kind = .clear then .ok new else do
        let new ← cpyCtor cfg old 0 new 0 idx
        cpyCtor cfg old (idx + del) new (idx + ins) (oldSize - (idx + del + pop)))
      let (h, nv) ← storeCells h nv new
      let h ← sharedDealloc cfg h b oldSize
      .ok (h, nv)

/-- include/fu/vec.h:508,602,688: `_Splice` returns the (non-null) data pointer. -/
def nonNull (r : M (Heap α × Hdr α)) : M (Heap α × Hdr α × Bool) :=
  match r with
  | .ok (h, v) => .ok (h, v, false)
  | .error e => .error e

/-- include/fu/vec.h:415-688 `_Splice`, `is_Init` excluded (see `initSplice`), after clamping.  Returns the heap, the
header, and whether the returned data pointer is `nullptr`.  Signed 32-bit overflow of `new_size`, or of the
`new_size + HAS_SMALL` at vec.h:572, is `ub`. -/
def splice (cfg : Cfg) (kind : Kind) (h : Heap α) (v : Hdr α) (idx del ins pop push : Nat) :
    M (Heap α × Hdr α × Bool) :=
  let oldSize := v.size
  let newSize := if kind = .clear then 0 else oldSize + (ins + push) - del - pop
  if newSize + 1 ≥ 2 ^ 31 then .error .ub
  else
    match v with
    | .small _ _ =>
      -- old_capa = SMALL_CAPA
      if newSize ≤ cfg.smallCapa then nonNull (holdGround cfg kind h v newSize idx del ins pop)
      else nonNull (reallocTo cfg kind h v newSize idx del ins pop)
    | .big b n capa false =>
      if newSize ≤ capa then nonNull (holdGround cfg kind h v newSize idx del ins pop)
      else nonNull (reallocTo cfg kind h (.big b n capa false) newSize idx del ins pop)
    | .big b n capa true =>
      -- old_capa is negative: 470 fails; 517-552
      if newSize > cfg.smallCapa ∧ newSize ≤ capa then
        if kind ≠ .reserve ∧ cfg.trivial = true ∧ push + ins = 0 ∧ (idx + del + pop = oldSize ∨ del = 0) then
          .ok (h, .big b newSize capa true, true)
        else
          match checkUnique cfg h b with
          | .error e => .error e
          | .ok true =>
            -- MarkUnique, then 468 again with the positive capacity
            nonNull (holdGround cfg kind h (.big b n capa false) newSize idx del ins pop)
          | .ok false =>
            if kind = .normal ∧ del + pop + ins + push = 0 then .ok (h, v, true)
            else nonNull (reallocTo cfg kind h (.big b n capa true) newSize idx del ins pop)
      else nonNull (reallocTo cfg kind h (.big b n capa true) newSize idx del ins pop)

/-- include/fu/vec.h:437-455: the clamping of the arguments.  `(fu::u)` comparisons of non-negative values. -/
def clampIdx (size : Nat) (idx : Int) : Nat := if idx > 0 then (if idx ≤ size then idx.toNat else size) else 0
def clampCnt (max : Nat) (n : Int) : Nat := if n > 0 then (if n ≤ max then n.toNat else max) else 0
def posPart (n : Int) : Nat := if n > 0 then n.toNat else 0

/-- include/fu/vec.h:437-455 + the rest: `_Splice` called with raw arguments. -/
def spliceRaw (cfg : Cfg) (kind : Kind) (h : Heap α) (v : Hdr α) (idx del ins pop push : Int) :
    M (Heap α × Hdr α × Bool) :=
  let i := clampIdx v.size idx
  let d := clampCnt (v.size - i) del
  let p := clampCnt (v.size - i - d) pop
  splice cfg kind h v i d (posPart ins) p (posPart push)

/-- include/fu/vec.h:429-431,555-602 with `is_Init`: storage for `n` items in a fresh header. -/
def initSplice (cfg : Cfg) (h : Heap α) (n : Nat) : M (Heap α × Hdr α) :=
  if n + 1 ≥ 2 ^ 31 then .error .ub
  else if n ≤ cfg.smallCapa then .ok (h, .small n (List.replicate cfg.smallCapa none))
  else do
    let (h, b, c) ← allocBlock cfg h n
    .ok (h, .big b n c false)

/-! ## Writing into the gap `_Splice` opened -/

/-- Placement-construct items from a list of values at offset `k` of the returned data pointer.  A null pointer or
an offset outside the storage is `ub` unless nothing is written. -/
def construct (cfg : Cfg) (h : Heap α) (v : Hdr α) (null : Bool) (k : Int) (xs : Cells α) : M (Heap α × Hdr α) :=
  if xs.length = 0 then .ok (h, v)
  else if null ∨ k < 0 then .error .ub
  else do
    let cs ← loadCells h v
    let cs ← cpyCtor cfg xs 0 cs k.toNat xs.length
    storeCells h v cs

/-- include/fu/vec.h:749-788 `DEF_initRange<ZERO_FILL>`: zero bytes (the default value of every fu type), or, for
trivial items without zero fill, indeterminate values. -/
def defInit (cfg : Cfg) (zero : α) (zf : Bool) (h : Heap α) (v : Hdr α) (null : Bool) (k : Int) (n : Nat) :
    M (Heap α × Hdr α) :=
  if n = 0 then .ok (h, v)
  else if null ∨ k < 0 then .error .ub
  else do
    let cs ← loadCells h v
    if k.toNat + n ≤ cs.length then
      if cfg.trivial then
        storeCells h v (patch cs k.toNat (List.replicate n (if zf then some zero else none)))
      else if allNone (slice cs k.toNat n) then storeCells h v (patch cs k.toNat (List.replicate n (some zero)))
      else .error .ub
    else .error .ub

/-! ## Operations on one header -/

/-- include/fu/vec.h:830-832 `push`. -/
def push (cfg : Cfg) (h : Heap α) (v : Hdr α) (x : α) : M (Heap α × Hdr α) := do
  let oldSize := v.size
  let (h, v, null) ← spliceRaw cfg .normal h v 0 0 0 0 1
  construct cfg h v null oldSize [some x]

/-- include/fu/vec.h:834-837 `insert`; note the write goes to the *unclamped* index. -/
def insert (cfg : Cfg) (h : Heap α) (v : Hdr α) (i : Int) (x : α) : M (Heap α × Hdr α) := do
  let (h, v, null) ← spliceRaw cfg .normal h v i 0 1 0 0
  construct cfg h v null i [some x]

/-- include/fu/vec.h:839-841 `unshift`. -/
def unshift (cfg : Cfg) (h : Heap α) (v : Hdr α) (x : α) : M (Heap α × Hdr α) := do
  let (h, v, null) ← spliceRaw cfg .normal h v 0 0 1 0 0
  construct cfg h v null 0 [some x]

/-- include/fu/vec.h:862-870 `resize<ZERO_FILL>`. -/
def resize (cfg : Cfg) (zero : α) (zf : Bool) (h : Heap α) (v : Hdr α) (s1 : Int) : M (Heap α × Hdr α) := do
  let s0 : Int := v.size
  let rem := if s0 - s1 > 0 then s0 - s1 else 0
  let add := if s1 - s0 > 0 then s1 - s0 else 0
  let oldSize := v.size
  let (h, v, null) ← spliceRaw cfg .normal h v 0 0 0 rem add
  defInit cfg zero zf h v null oldSize (v.size - oldSize)

/-- include/fu/vec.h:872-876 `grow<ZERO_FILL>`. -/
def grow (cfg : Cfg) (zero : α) (zf : Bool) (h : Heap α) (v : Hdr α) (s1 : Int) : M (Heap α × Hdr α) := do
  let oldSize := v.size
  let (h, v, null) ← spliceRaw cfg .normal h v 0 0 0 0 (s1 - v.size)
  defInit cfg zero zf h v null oldSize (v.size - oldSize)

/-- include/fu/vec.h:878-880 `shrink`. -/
def shrink (cfg : Cfg) (h : Heap α) (v : Hdr α) (s1 : Int) : M (Heap α × Hdr α) := do
  let (h, v, _) ← spliceRaw cfg .normal h v 0 0 0 (v.size - s1) 0
  .ok (h, v)

/-- include/fu/vec.h:882-884 `clear`. -/
def clear (cfg : Cfg) (h : Heap α) (v : Hdr α) : M (Heap α × Hdr α) := do
  let (h, v, _) ← spliceRaw cfg .clear h v 0 0 0 0 0
  .ok (h, v)

/-- include/fu/vec.h:886-888 `pop`.  The count has type `fu_ONE`, whose assignment operator ignores its argument
(include/fu/vec/maybe_pos.h:14-23), so the clamping of `_Splice` is void: on an empty vector `new_size` is -1 and the
header is corrupted.  That is `ub` here. -/
def pop (cfg : Cfg) (h : Heap α) (v : Hdr α) : M (Heap α × Hdr α) :=
  if v.size = 0 then .error .ub
  else do
    let (h, v, _) ← spliceRaw cfg .normal h v 0 0 0 1 0
    .ok (h, v)

/-- include/fu/vec.h:901-903 `shift()`; the count is a `fu_ONE` as in `pop`. -/
def shift1 (cfg : Cfg) (h : Heap α) (v : Hdr α) : M (Heap α × Hdr α) :=
  if v.size = 0 then .error .ub
  else do
    let (h, v, _) ← spliceRaw cfg .normal h v 0 1 0 0 0
    .ok (h, v)

/-- include/fu/vec.h:890-893 `splice(idx, del)`. -/
def spliceDel (cfg : Cfg) (h : Heap α) (v : Hdr α) (idx del : Int) : M (Heap α × Hdr α) := do
  let (h, v, _) ← spliceRaw cfg .normal h v idx del 0 0 0
  .ok (h, v)

/-- include/fu/vec.h:895-899 `splice_empty<ZERO_FILL>`; writes at the unclamped index. -/
def spliceEmpty (cfg : Cfg) (zero : α) (zf : Bool) (h : Heap α) (v : Hdr α) (idx del count : Int) :
    M (Heap α × Hdr α) := do
  let (h, v, null) ← spliceRaw cfg .normal h v idx del count 0 0
  defInit cfg zero zf h v null idx (posPart count)

/-- include/fu/vec.h:909-911 `shift_pop` (and 905-907 `shift(n)` = `shift_pop(n, 0)`). -/
def shiftPop (cfg : Cfg) (h : Heap α) (v : Hdr α) (shift pop : Int) : M (Heap α × Hdr α) := do
  let (h, v, _) ← spliceRaw cfg .normal h v 0 shift 0 pop 0
  .ok (h, v)

/-- include/fu/vec.h:1076: `new_capa <= capa() && new_capa >= 0`; `capa()` of a shared vector is negative. -/
def reserveFast (cfg : Cfg) (v : Hdr α) (newCapa : Int) : Bool :=
  (match v with
    | .small _ _ => decide (newCapa ≤ cfg.smallCapa)
    | .big _ _ c false => decide (newCapa ≤ c)
    | .big _ _ _ true => false) && decide (newCapa ≥ 0)

/-- include/fu/vec.h:1074-1094 `reserve(new_capa)` / `_DoReserve`. -/
def reserve (cfg : Cfg) (h : Heap α) (v : Hdr α) (newCapa : Int) : M (Heap α × Hdr α) :=
  if reserveFast cfg v newCapa then .ok (h, v)
  else if newCapa = 0 ∧ cfg.copiable = false then .ok (h, v)
  else do
    let oldSize := v.size
    let (h, v, _) ← spliceRaw cfg .reserve h v 0 0 0 0 (if newCapa = 0 then 0 else newCapa - v.size)
    .ok (h, v.setSize oldSize)

/-- include/fu/vec.h:1096-1111 `reserve()` / `data_mut()`: make the storage exclusively ours. -/
def makeUnique (cfg : Cfg) (h : Heap α) (v : Hdr α) : M (Heap α × Hdr α) :=
  if cfg.copiable then reserve cfg h v 0 else .ok (h, v)

/-- include/fu/vec.h:1143-1161 `operator[]`. -/
def get (h : Heap α) (v : Hdr α) (k : Int) : M (Option α) :=
  if 0 ≤ k ∧ k < v.size then
    match cellsOf h v with
    | some cs => (match cs[k.toNat]? with
      | some x => .ok x
      | none => .error .ub)
    | none => .error .ub
  else .error .trap

/-- include/fu/vec.h:1163-1181 `mutref(idx) = x`: assignment to an item. -/
def set (cfg : Cfg) (h : Heap α) (v : Hdr α) (k : Int) (x : α) : M (Heap α × Hdr α) := do
  let (h, v) ← makeUnique cfg h v
  if 0 ≤ k ∧ k < v.size then do
    let cs ← loadCells h v
    match cs[k.toNat]? with
    | some old =>
      if cfg.trivial || old.isSome then storeCells h v (cs.set k.toNat (some x)) else .error .ub
    | none => .error .ub
  else .error .trap

/-- include/fu/vec.h:1049-1057 `UNSAFE__init_copy` / `UNSAFE__init_move` from a list of values (literals). -/
def initList (cfg : Cfg) (h : Heap α) (xs : Cells α) : M (Heap α × Hdr α) := do
  let (h, v) ← initSplice cfg h xs.length
  construct cfg h v false 0 xs

/-- include/fu/vec.h:231-247 `~vec`: afterwards the header no longer exists. -/
def destroy (cfg : Cfg) (h : Heap α) (v : Hdr α) : M (Heap α) :=
  match v with
  | .small _ _ => .ok h
  | .big b n _ _ => sharedDealloc cfg h b n

/-- include/fu/vec.h:324-339 copy constructor: returns (source header, new header); the source is marked shared
although it is `const`.  `static_assert(COPIABLE)`: not callable otherwise (`ub`). -/
def copy (cfg : Cfg) (h : Heap α) (c : Hdr α) : M (Heap α × Hdr α × Hdr α) :=
  if cfg.copiable then
    match c with
    | .small n cs => .ok (h, .small n cs, .small n cs)
    | .big b n capa _ =>
      match h.blk b with
      | none => .error .ub
      | some blk => .ok (h.set b (some { blk with arc := blk.arc + 1 }), .big b n capa true, .big b n capa true)
  else .error .ub

/-- include/fu/vec.h:914-945 `splice(idx, del, vec&&)` and 974-1004 `append(del, vec&&)` after the position `at_`
(possibly out of range) of the write and the result of the `MUT_` step are known; returns the emptied source too.
`src` is the header moved from. -/
def moveIn (cfg : Cfg) (h : Heap α) (v : Hdr α) (null : Bool) (at_ : Int) (src : Hdr α) :
    M (Heap α × Hdr α × Hdr α) := do
  let srcSize := src.size
  match src with
  | .small _ scs =>
    let (h, v) ← construct cfg h v null at_ (scs.take srcSize)
    .ok (h, v, src)
  | .big b _ _ shared =>
    let uniq ← (if cfg.trivial then .ok false
                else if !shared then .ok true
                else checkUnique cfg h b)
    if uniq then do
      -- relocate the items, free the source block without running destructors
      let (h, v) ← (if srcSize = 0 then .ok (h, v)
        else if null ∨ at_ < 0 then .error .ub
        else do
          let scs ← loadCells h src
          let dcs ← loadCells h v
          let (scs, dcs) ← memcpy cfg scs 0 dcs at_.toNat srcSize
          let (h, _) ← storeCells h src scs
          storeCells h v dcs)
      let h ← uniqDealloc cfg h b
      .ok (h, v, emptyHdr cfg)
    else do
      let scs ← loadCells h src
      let (h, v) ← construct cfg h v null at_ (scs.take srcSize)
      let h ← sharedDealloc cfg h b srcSize
      .ok (h, v, emptyHdr cfg)

/-- include/fu/vec.h:917-945. -/
def spliceMove (cfg : Cfg) (h : Heap α) (v : Hdr α) (idx del : Int) (src : Hdr α) : M (Heap α × Hdr α × Hdr α) := do
  let (h, v, null) ← spliceRaw cfg .normal h v idx del src.size 0 0
  moveIn cfg h v null idx src

/-- include/fu/vec.h:974-1004. -/
def appendMove (cfg : Cfg) (h : Heap α) (v : Hdr α) (del : Int) (src : Hdr α) : M (Heap α × Hdr α × Hdr α) := do
  let oldSize := v.size
  let (h, v, null) ← spliceRaw cfg .normal h v 0 0 0 del src.size
  moveIn cfg h v null (oldSize - del) src

/-- include/fu/vec.h:1035-1043 `UNSAFE__self_splice`: copy the source items out, then splice the copy in.  `tmpbuf` is
destroyed at the end of the function. -/
def selfSplice (cfg : Cfg) (h : Heap α) (v : Hdr α) (idx del : Int) (items : Cells α) : M (Heap α × Hdr α) := do
  let (h, tmp) ← initList cfg h items
  let (h, v, tmp) ← spliceMove cfg h v idx del tmp
  let h ← destroy cfg h tmp
  .ok (h, v)

/-- The comparison of `src_data` with `old_data` at include/fu/vec.h:963-968 and 1019-1024: `some off` when `src_data`
is `old_data + off` as far as those comparisons can tell, `none` when it is outside `[old_data, old_data + …]`.
`v` is the destination and `w` the vector the source view (starting at item `a`) points into; `same` says they are
one and the same variable.  Distinct storages have distinct addresses, but the end of one may touch the start of
the other: `adj` is the allocator's choice.  Two null headers both have `data() == nullptr`. -/
def srcOff (cfg : Cfg) (v w : Hdr α) (same : Bool) (a : Nat) (adj : Bool) : Option Nat :=
  let far : Option Nat :=
    let room := match v with | .small _ _ => cfg.smallCapa | .big _ _ c _ => c
    if adj && decide (v.size = room) && decide (0 < room) then some v.size else none
  match v, w with
  | .big b _ _ _, .big b' _ _ _ => if b = b' then some a else far
  | .small _ _, .small _ _ => if same then some a else if cfg.smallCapa = 0 then some 0 else far
  | _, _ => far

/-- include/fu/vec.h:957-971 `splice_copy(idx, del, src_data, src_size)`, the source being `n` items of `w` from `a` on.
The plain path copies after `MUT_mid`, from the source's storage as it is then. -/
def spliceCopy (cfg : Cfg) (h : Heap α) (v w : Hdr α) (same : Bool) (a n : Nat) (adj : Bool) (idx del : Int) :
    M (Heap α × Hdr α) :=
  let plain : M (Heap α × Hdr α) := do
    let (h, v, null) ← spliceRaw cfg .normal h v idx del n 0 0
    let scs ← loadCells h w
    construct cfg h v null idx (slice scs a n)
  match srcOff cfg v w same a adj with
  | none => plain
  | some off =>
    if off > v.size then plain
    else if idx ≠ 0 ∨ del ≠ v.size ∨ off ≠ 0 then do
      let scs ← loadCells h w
      selfSplice cfg h v idx del (slice scs a n)
    else .ok (h, v)

/-- include/fu/vec.h:1012-1028 `append_copy(del, src_data, src_size)`. -/
def appendCopy (cfg : Cfg) (h : Heap α) (v w : Hdr α) (same : Bool) (a n : Nat) (adj : Bool) (del : Int) :
    M (Heap α × Hdr α) :=
  let oldSize := v.size
  let plain : M (Heap α × Hdr α) := do
    let (h, v, null) ← spliceRaw cfg .normal h v 0 0 0 del n
    let scs ← loadCells h w
    construct cfg h v null (oldSize - del) (slice scs a n)
  match srcOff cfg v w same a adj with
  | none => plain
  | some off =>
    if off > v.size then plain
    else if del ≠ v.size ∨ off ≠ 0 then do
      let scs ← loadCells h w
      selfSplice cfg h v (oldSize - del) del (slice scs a n)
    else .ok (h, v)

/-- include/fu/vec.h:341-345 move constructor: returns (emptied source, new header). -/
def moveOut (cfg : Cfg) (v : Hdr α) : Hdr α × Hdr α := (emptyHdr cfg, v)

/-! ## Programs over several vector variables -/

/-- All variables (`none` once destroyed), the heap, and the items read so far. -/
structure State (α : Type) where
  heap : Heap α
  vars : List (Option (Hdr α))
  out : List (Option α)

/-- One statement of a program using vectors. -/
inductive Op (α : Type) where
  | new
  | lit (xs : List α)
  | copyNew (j : Nat)
  | moveNew (j : Nat)
  | copyAssign (i j : Nat)
  | moveAssign (i j : Nat)
  | drop (i : Nat)
  | push (i : Nat) (x : α)
  | insert (i : Nat) (at_ : Int) (x : α)
  | unshift (i : Nat) (x : α)
  | resize (i : Nat) (zeroFill : Bool) (n : Int)
  | grow (i : Nat) (zeroFill : Bool) (n : Int)
  | shrink (i : Nat) (n : Int)
  | clear (i : Nat)
  | pop (i : Nat)
  | shift (i : Nat)
  | spliceDel (i : Nat) (idx del : Int)
  | spliceEmpty (i : Nat) (zeroFill : Bool) (idx del count : Int)
  | shiftPop (i : Nat) (s p : Int)
  | reserve (i : Nat) (c : Int)
  | get (i : Nat) (k : Int)
  | set (i : Nat) (k : Int) (x : α)
  | spliceMove (i : Nat) (idx del : Int) (j : Nat)
  | appendMove (i : Nat) (del : Int) (j : Nat)
  | spliceCopy (i : Nat) (idx del : Int) (j a n : Nat) (adj : Bool)
  | appendCopy (i : Nat) (del : Int) (j a n : Nat) (adj : Bool)

/-- The header of a live variable; using a destroyed one is `ub`. -/
def State.var (s : State α) (i : Nat) : M (Hdr α) :=
  match s.vars[i]? with
  | some (some v) => .ok v
  | _ => .error .ub

/-- Run a one-variable operation. -/
def State.upd (s : State α) (i : Nat) (f : Heap α → Hdr α → M (Heap α × Hdr α)) : M (State α) := do
  let v ← s.var i
  let (h, v) ← f s.heap v
  .ok { s with heap := h, vars := s.vars.set i (some v) }

/-- One statement.  `spliceMove`/`appendMove` take the source by rvalue reference; the emptied source variable is then
destroyed, as the generated code does with moved-from values. -/
def step (cfg : Cfg) (zero : α) (s : State α) : Op α → M (State α)
  | .new => .ok { s with vars := s.vars ++ [some (emptyHdr cfg)] }
  | .lit xs => do
    let (h, v) ← initList cfg s.heap (xs.map some)
    .ok { s with heap := h, vars := s.vars ++ [some v] }
  | .copyNew j => do
    let v ← s.var j
    let (h, v, w) ← copy cfg s.heap v
    .ok { s with heap := h, vars := s.vars.set j (some v) ++ [some w] }
  | .moveNew j => do
    let v ← s.var j
    let (v, w) := moveOut cfg v
    .ok { s with vars := s.vars.set j (some v) ++ [some w] }
  | .copyAssign i j => do -- vec.h:347-352: `*this = fu_VEC(c)`
    if i = j then .error .ub else
    let old ← s.var i
    let v ← s.var j
    let (h, v, w) ← copy cfg s.heap v
    let h ← destroy cfg h old
    .ok { s with heap := h, vars := (s.vars.set j (some v)).set i (some w) }
  | .moveAssign i j => do -- vec.h:361-368
    if i = j then .error .ub else
    let old ← s.var i
    let h ← destroy cfg s.heap old
    let v ← s.var j
    let (v, w) := moveOut cfg v
    .ok { s with heap := h, vars := (s.vars.set j (some v)).set i (some w) }
  | .drop i => do
    let v ← s.var i
    let h ← destroy cfg s.heap v
    .ok { s with heap := h, vars := s.vars.set i none }
  | .push i x => s.upd i fun h v => push cfg h v x
  | .insert i k x => s.upd i fun h v => insert cfg h v k x
  | .unshift i x => s.upd i fun h v => unshift cfg h v x
  | .resize i zf n => s.upd i fun h v => resize cfg zero zf h v n
  | .grow i zf n => s.upd i fun h v => grow cfg zero zf h v n
  | .shrink i n => s.upd i fun h v => shrink cfg h v n
  | .clear i => s.upd i fun h v => clear cfg h v
  | .pop i => s.upd i fun h v => pop cfg h v
  | .shift i => s.upd i fun h v => shift1 cfg h v
  | .spliceDel i idx del => s.upd i fun h v => spliceDel cfg h v idx del
  | .spliceEmpty i zf idx del c => s.upd i fun h v => spliceEmpty cfg zero zf h v idx del c
  | .shiftPop i a b => s.upd i fun h v => shiftPop cfg h v a b
  | .reserve i c => s.upd i fun h v => reserve cfg h v c
  | .set i k x => s.upd i fun h v => set cfg h v k x
  | .get i k => do
    let v ← s.var i
    let x ← get s.heap v k
    .ok { s with out := s.out ++ [x] }
  | .spliceMove i idx del j => do
    if i = j then .error .ub else
    let v ← s.var i
    let src ← s.var j
    let (h, v, src) ← spliceMove cfg s.heap v idx del src
    let h ← destroy cfg h src
    .ok { s with heap := h, vars := (s.vars.set j none).set i (some v) }
  | .appendMove i del j => do
    if i = j then .error .ub else
    let v ← s.var i
    let src ← s.var j
    let (h, v, src) ← appendMove cfg s.heap v del src
    let h ← destroy cfg h src
    .ok { s with heap := h, vars := (s.vars.set j none).set i (some v) }
  | .spliceCopy i idx del j a n adj => do
    let w ← s.var j
    s.upd i fun h v => spliceCopy cfg h v w (decide (i = j)) a n adj idx del
  | .appendCopy i del j a n adj => do
    let w ← s.var j
    s.upd i fun h v => appendCopy cfg h v w (decide (i = j)) a n adj del

/-- A whole program. -/
def run (cfg : Cfg) (zero : α) (s : State α) : List (Op α) → M (State α)
  | [] => .ok s
  | op :: ops => do
    let s ← step cfg zero s op
    run cfg zero s ops

/-- Nothing allocated, no variables. -/
def start : State α := { heap := { blk := fun _ => none, next := 0 }, vars := [], out := [] }

end Verif.Vec
