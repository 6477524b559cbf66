import Verif.VecProps
/-!
# Model of the operators built on `fu::vec`: `+` (fu's `~`), `slice`/`substr`, `view_swap`

`include/fu/vec/concat.h`, `include/fu/vec/concat_one.h`, `include/fu/vec/LEGACY_slice.h`,
`include/fu/vec/view_swap.h`, on top of the model of the vector itself (`VecModel`).

The C++ overloads are chosen by value category and by whether an operand is a `fu::vec` or a mere view of one; each
overload is its own statement here.  An operand taken by `vec&&` is destroyed after the expression, as generated code
does with moved-from values; an operand taken by `const V&` is `n` items of a variable from item `a` on.  The result is a
new variable.  Release mode as in `VecModel`: the `assert` of `slice` (LEGACY_slice.h:39) is not there.
Simplification: a temporary that is returned is the new variable itself (its moved-from header is null).
-/
namespace Verif.Vec
open Verif.Pack (Cfg)
variable {α : Type}

/-- One statement using the operators. -/
inductive Stmt (α : Type) where
  | op (o : Op α)
  /-- `vec&& + vec&&` -/
  | catMM (i j : Nat)
  /-- `vec&& + const V&` -/
  | catMV (i : Nat) (j a n : Nat) (adj : Bool)
  /-- `const V& + vec&&` -/
  | catVM (j a n : Nat) (adj : Bool) (i : Nat)
  /-- `const A& + const B&`; the flags say which of them is a whole `fu::vec` rather than a view -/
  | catCC (aVec bVec : Bool) (i a n j b m : Nat)
  /-- `vec&& + T&&` -/
  | catMI (i : Nat) (x : α)
  /-- `T&& + vec&&` -/
  | catIM (x : α) (i : Nat)
  /-- `const V& + T&&` -/
  | catCI (i a n : Nat) (adj : Bool) (x : α)
  /-- `T&& + const V&` -/
  | catIC (x : α) (i a n : Nat) (adj : Bool)
  /-- `slice(vec&&, start)` -/
  | sliceM1 (i : Nat) (start : Int)
  /-- `slice(vec&&, start, end)` -/
  | sliceM (i : Nat) (start end_ : Int)
  /-- `slice(const vec&, start, end)` -/
  | sliceC (i : Nat) (start end_ : Int)
  /-- `slice(const vec&, start)` -/
  | sliceC1 (i : Nat) (start : Int)
  /-- `substr(vec&&, start, count)` -/
  | substrM (i : Nat) (start count : Int)
  /-- `substr(const vec&, start, count)` -/
  | substrC (i : Nat) (start count : Int)
  /-- `view_swap(a, x, y)` -/
  | swap (i : Nat) (x y : Int)

/-- The items a view sees, at the time it is read. -/
def readView (h : Heap α) (w : Hdr α) (a n : Nat) : M (Cells α) := do
  let cs ← loadCells h w
  .ok (slice cs a n)

/-- include/fu/vec.h:1061-1068 `UNSAFE__init_copy(src0, size0, src1, size1)`: both sources are read after the new storage
was made. -/
def initCopy2 (cfg : Cfg) (h : Heap α) (w1 : Hdr α) (a n : Nat) (w2 : Hdr α) (b m : Nat) : M (Heap α × Hdr α) := do
  let (h, v) ← initSplice cfg h (n + m)
  let xs ← readView h w1 a n
  let (h, v) ← construct cfg h v false 0 xs
  let ys ← readView h w2 b m
  construct cfg h v false n ys

/-- include/fu/vec.h:1049-1052 `UNSAFE__init_copy(src, size)`. -/
def initCopy1 (cfg : Cfg) (h : Heap α) (w : Hdr α) (a n : Nat) : M (Heap α × Hdr α) := do
  let (h, v) ← initSplice cfg h n
  let xs ← readView h w a n
  construct cfg h v false 0 xs

/-- include/fu/vec/view_swap.h:11-14 `std::swap(a.mutref(x), a.mutref(y))`: include/fu/vec.h:1163-1181 twice (whichever
comes first makes the storage ours, for the other there is nothing left to do), then the items change places.  Both
slots must hold a live item when the type is not trivial. -/
def swapItems (cfg : Cfg) (h : Heap α) (v : Hdr α) (x y : Int) : M (Heap α × Hdr α) := do
  let (h, v) ← makeUnique cfg h v
  if 0 ≤ x ∧ x < v.size ∧ 0 ≤ y ∧ y < v.size then do
    let cs ← loadCells h v
    match cs[x.toNat]?, cs[y.toNat]? with
    | some p, some q =>
      if cfg.trivial || (p.isSome && q.isSome) then storeCells h v ((cs.set x.toNat q).set y.toNat p) else .error .ub
    | _, _ => .error .ub
  else .error .trap

/-- 32-bit signed arithmetic overflows. -/
def i32 (n : Int) : M Int := if -(2 : Int) ^ 31 ≤ n ∧ n < (2 : Int) ^ 31 then .ok n else .error .ub

/-- Append a new variable. -/
def State.add (s : State α) (r : M (Heap α × Hdr α)) : M (State α) := do
  let (h, v) ← r
  .ok { s with heap := h, vars := s.vars ++ [some v] }

/-- include/fu/vec/LEGACY_slice.h:33-64 `slice(const vec&, start, end)`. -/
def sliceCopying (cfg : Cfg) (zero : α) (s : State α) (i : Nat) (start end_ : Int) : M (State α) := do
  let v ← s.var i
  -- 42-54: the shortcuts that share the source's storage
  if cfg.trivial = true ∧ start = 0 ∧ (cfg.smallCapa : Int) < end_ then do
    let pop ← i32 (v.size - end_)
    run cfg zero s [.copyNew i, .shiftPop s.vars.length 0 pop]
  else if cfg.trivial = false ∧ start = 0 ∧ end_ = v.size then step cfg zero s (.copyNew i)
  else do
    -- 59-63
    let e := if end_ < v.size then end_ else (v.size : Int)
    let b := if start > 0 then start else 0
    let c ← i32 (e - b)
    let c := if c > 0 then c else 0
    s.add (initCopy1 cfg s.heap v b.toNat c.toNat)

/-- One statement. -/
def exec (cfg : Cfg) (zero : α) (s : State α) : Stmt α → M (State α)
  | .op o => step cfg zero s o
  | .catMM i j => run cfg zero s [.appendMove i 0 j, .moveNew i, .drop i] -- concat.h:8-12
  | .catMV i j a n adj => run cfg zero s [.appendCopy i 0 j a n adj, .moveNew i, .drop i] -- concat.h:35-41
  | .catVM j a n adj i => run cfg zero s [.spliceCopy i 0 0 j a n adj, .moveNew i, .drop i] -- concat.h:43-49
  | .catCC aVec bVec i a n j b m => do -- concat.h:72-120, the four fallbacks
    let v ← s.var i
    let w ← s.var j
    if bVec = true ∧ n = 0 then step cfg zero s (.copyNew j) -- 90-91, 112-113
    else if aVec = true ∧ m = 0 then step cfg zero s (.copyNew i) -- 77-78, 114-115
    else s.add (initCopy2 cfg s.heap v a n w b m) -- 80-82, 93-95, 104-106, 117-119
  | .catMI i x => run cfg zero s [.push i x, .moveNew i, .drop i] -- concat_one.h:8-12
  | .catIM x i => run cfg zero s [.unshift i x, .moveNew i, .drop i] -- concat_one.h:14-18
  | .catCI i a n adj x => -- concat_one.h:73-84
    let k := s.vars.length
    run cfg zero s [.new, .reserve k (n + 1), .appendCopy k 0 i a n adj, .push k x]
  | .catIC x i a n adj => -- concat_one.h:86-97
    let k := s.vars.length
    run cfg zero s [.new, .reserve k (n + 1), .push k x, .appendCopy k 0 i a n adj]
  | .sliceM1 i start => run cfg zero s [.shiftPop i start 0, .moveNew i, .drop i] -- LEGACY_slice.h:11-14
  | .sliceM i start end_ => do -- LEGACY_slice.h:16-20
    let v ← s.var i
    let pop ← i32 (v.size - end_)
    run cfg zero s [.shiftPop i start pop, .moveNew i, .drop i]
  | .sliceC i start end_ => sliceCopying cfg zero s i start end_
  | .sliceC1 i start => do -- LEGACY_slice.h:66-69
    let v ← s.var i
    sliceCopying cfg zero s i start v.size
  | .substrM i start count => do -- LEGACY_slice.h:22-25
    let v ← s.var i
    let e ← i32 (start + count)
    let pop ← i32 (v.size - e)
    run cfg zero s [.shiftPop i start pop, .moveNew i, .drop i]
  | .substrC i start count => do -- LEGACY_slice.h:71-74
    let e ← i32 (start + count)
    sliceCopying cfg zero s i start e
  | .swap i x y => s.upd i fun h v => swapItems cfg h v x y

/-- A whole program. -/
def execAll (cfg : Cfg) (zero : α) (s : State α) : List (Stmt α) → M (State α)
  | [] => .ok s
  | st :: sts => do
    let s ← exec cfg zero s st
    execAll cfg zero s sts

end Verif.Vec
