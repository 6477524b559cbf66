import Verif.VecModel
/-!
# `fu::vec_range` and `fu::vec_range_mut` - include/fu/vec_range.h

A range is a pointer to a vector variable and two 32-bit trims packed in one word.  Every operation works on the vector
variable it points at through the vector's own operations, so an operation here computes, in 32-bit arithmetic, which
vector operations (`Verif.Vec.Op`, the model of include/fu/vec.h) it calls with which arguments; they then run on the
same heap.  Release build (`NDEBUG`, not `fu_RETAIL`): the asserts are gone, `operator[]` traps.

Not modelled: `swap`/`swap_ranges`, `capa`/`UNSAFE__WriteSize`, and assigning from a range when the target covers
its whole vector (that path goes through `fu::slice`).
-/
namespace Verif.Range
open Verif.Vec (Op State M Hdr)
open Verif.Pack (Cfg)
variable {α : Type}

/-- include/fu/vec_range.h:19-20, 546-547 (`m_vec`, `m_trim`); the pointer is the variable's index. -/
structure Rng where
  vec : Nat
  trim : BitVec 64

/-- include/fu/vec_range.h:22-24, 549-551 (`Left`) -/
def Rng.left (g : Rng) : BitVec 32 := (g.trim &&& 0xffffffff#64).setWidth 32

/-- include/fu/vec_range.h:26-28, 553-555 (`Right`) -/
def Rng.right (g : Rng) : BitVec 32 := (g.trim >>> 32).setWidth 32

/-- include/fu/vec_range.h:57-59, 582-584 (`size`); `n` is the vector's size. -/
def Rng.size (n : Nat) (g : Rng) : BitVec 32 := BitVec.ofNat 32 n - (g.left + g.right)

/-- include/fu/vec_range.h:37-40, 569-572: the range of a whole vector -/
def whole (i : Nat) : Rng := { vec := i, trim := 0 }

/-- include/fu/vec_range.h:670-681, 715-726 (`get_range`/`get_range_mut` with a start) -/
def subFrom (n : Nat) (g : Rng) (start : BitVec 32) : Rng :=
  let stop := g.size n
  let start := if (0#32).slt start then start else 0
  let start := if start.slt stop then start else stop
  { g with trim := g.trim + start.signExtend 64 }

/-- include/fu/vec_range.h:683-694, 728-739 (`get_range_start0`/`get_range_start0_mut`) -/
def subTo (n : Nat) (g : Rng) (stop : BitVec 32) : Rng :=
  let size := g.size n
  let stop := if (0#32).slt stop then stop else 0
  let stop := if stop.ule size then stop else size
  { g with trim := g.trim + (size - stop).signExtend 64 <<< 32 }

/-- include/fu/vec_range.h:696-710, 741-755 (`get_range`/`get_range_mut` with a start and an end) -/
def sub (n : Nat) (g : Rng) (start stop : BitVec 32) : Rng :=
  let size := g.size n
  let stop := if (0#32).slt stop then stop else 0
  let start := if (0#32).slt start then start else 0
  let stop := if stop.ule size then stop else size
  let start := if start.slt stop then start else stop
  { g with trim := g.trim + (start.signExtend 64 ||| (size - stop).signExtend 64 <<< 32) }

/-- The operations through a (mutable) range.  Sources: `j` a variable moved from, or `n` items from `a` on of the
variable `j` (`adj` as for `Verif.Vec.Op`). -/
inductive ROp (α : Type) where
  | get (k : BitVec 32)
  | set (k : BitVec 32) (x : α)
  | push (x : α)
  | insert (k : BitVec 32) (x : α)
  | unshift (x : α)
  | resize (zeroFill : Bool) (n : BitVec 32)
  | grow (zeroFill : Bool) (n : BitVec 32)
  | shrink (n : BitVec 32)
  | clear
  | pop
  | spliceDel (idx del : BitVec 32)
  | spliceMove (idx del : BitVec 32) (j : Nat)
  | spliceCopy (idx del : BitVec 32) (j a n : Nat) (adj : Bool)
  | appendMove (del : BitVec 32) (j : Nat)
  | appendCopy (del : BitVec 32) (j a n : Nat) (adj : Bool)
  | assignMove (j : Nat)
  | assignCopy (j : Nat) (adj : Bool)
  | moveOut

/-- include/fu/vec_range.h:124-133, 149-158: the sanitised index and count of a splice into `old` items -/
def sanitize (old idx del : BitVec 32) : BitVec 32 × BitVec 32 :=
  let idx := if (0#32).slt idx then idx else 0
  let del := if (0#32).slt del then del else 0
  let idx := if old.slt idx then old else idx
  let max := old - idx
  let del := if max.slt del then max else del
  (idx, del)

/-- include/fu/vec_range.h:72-110 (`operator[]`, `mutref`): the bounds check, then the vector's item -/
def item (old left k : BitVec 32) (f : Int → Op α) : M (List (Op α)) :=
  if k.ult old then .ok [f (k + left).toInt] else .error .trap

/-- The vector operations an operation through a range calls.  `n` and `m` are the sizes of the range's vector and of
the source variable. -/
def calls (n m : Nat) (g : Rng) : ROp α → M (List (Op α))
  | .get k => item (g.size n) g.left k (.get g.vec) -- vec_range.h:72-90, 622-640
  | .set k x => item (g.size n) g.left k (.set g.vec · x) -- vec_range.h:92-110
  | .push x => .ok [.insert g.vec (BitVec.ofNat 32 n - g.right).toInt x] -- vec_range.h:217-221
  | .insert idx x => -- vec_range.h:223-237
    let old := g.size n
    let idx := if (0#32).slt idx then idx else 0
    let idx := if idx.slt old then idx else old
    .ok [.insert g.vec (g.left + idx).toInt x]
  | .unshift x => .ok [.insert g.vec (g.left + 0).toInt x] -- vec_range.h:239-241
  | .resize zf n1 => -- vec_range.h:275-290
    let old := g.size n
    let n1 := if (0#32).slt n1 then n1 else 0
    let dif := n1 - old
    let del := if (0#32).slt dif then 0 else -dif
    let add := if dif.slt 0#32 then 0 else dif
    .ok [.spliceEmpty g.vec zf ((g.left + old) - del).toInt del.toInt add.toInt]
  | .grow zf n1 => -- vec_range.h:292-305
    let old := g.size n
    let n1 := if old.slt n1 then n1 else old
    let add := n1 - old
    .ok [.spliceEmpty g.vec zf (g.left + old).toInt 0 add.toInt]
  | .shrink n1 => -- vec_range.h:307-324
    let old := g.size n
    let n1 := if (0#32).slt n1 then n1 else 0
    let n1 := if n1.slt old then n1 else old
    let del := old - n1
    .ok [.spliceDel g.vec ((g.left + old) - del).toInt del.toInt]
  | .clear => -- vec_range.h:326-328: `shrink(fu_ZERO())`
    let old := g.size n
    let del := old - 0
    .ok [.spliceDel g.vec ((g.left + old) - del).toInt del.toInt]
  | .pop => -- vec_range.h:330-339
    let old := g.size n
    if old = 0#32 then .ok [] else .ok [.spliceDel g.vec ((g.left + old) - 1).toInt 1]
  | .spliceDel idx del => -- vec_range.h:341-365
    let old := g.size n
    let idx := if (0#32).slt idx then idx else 0
    let idx := if idx.slt old then idx else old
    let max := old - idx
    let del := if (0#32).slt del then del else 0
    let del := if del.slt max then del else max
    .ok [.spliceDel g.vec (g.left + idx).toInt del.toInt]
  | .spliceMove idx del j => -- vec_range.h:115-138
    let (idx, del) := sanitize (g.size n) idx del
    .ok [.spliceMove g.vec (g.left + idx).toInt del.toInt j]
  | .spliceCopy idx del j a c adj => -- vec_range.h:140-163
    let (idx, del) := sanitize (g.size n) idx del
    .ok [.spliceCopy g.vec (g.left + idx).toInt del.toInt j a c adj]
  | .appendMove del j => -- vec_range.h:169-185
    let old := g.size n
    let del := if (0#32).slt del then del else 0
    let del := if old.slt del then old else del
    .ok [.spliceMove g.vec (g.left + old).toInt del.toInt j]
  | .appendCopy del j a c adj => -- vec_range.h:187-211
    let old := g.size n
    let del := if (0#32).slt del then del else 0
    let del := if old.slt del then old else del
    .ok [.spliceCopy g.vec (g.left + old).toInt del.toInt j a c adj]
  | .assignMove j => -- vec_range.h:382-390; the emptied source is then destroyed, as in `Verif.Vec.step`
    if g.trim ≠ 0 then .ok [.spliceMove g.vec g.left.toInt (g.size n).toInt j] else .ok [.moveAssign g.vec j, .drop j]
  | .assignCopy j adj => -- vec_range.h:392-400
    if g.trim ≠ 0 then .ok [.spliceCopy g.vec g.left.toInt (g.size n).toInt j 0 m adj] else .ok [.copyAssign g.vec j]
  | .moveOut => -- vec_range.h:436-442 (`destructive_move`), into a new variable
    .ok [.shiftPop g.vec g.left.toInt g.right.toInt, .moveNew g.vec]

/-- the source variable, for the operations that have one -/
def ROp.src : ROp α → Option Nat
  | .spliceMove _ _ j | .spliceCopy _ _ j _ _ _ | .appendMove _ j | .appendCopy _ j _ _ _ | .assignMove j | .assignCopy j _ => some j
  | _ => none

/-- A program state: the vectors, and the ranges the program holds. -/
structure RState (α : Type) where
  st : State α
  rngs : List Rng

/-- One statement of a program using vectors and ranges; the creating ones put the new range last. -/
inductive Stmt (α : Type) where
  | vec (op : Op α)
  | whole (i : Nat)
  | subFrom (g : Nat) (start : BitVec 32)
  | subTo (g : Nat) (stop : BitVec 32)
  | sub (g : Nat) (start stop : BitVec 32)
  | use (g : Nat) (op : ROp α)

/-- A range variable of the program. -/
def RState.rng (s : RState α) (g : Nat) : M Rng :=
  match s.rngs[g]? with
  | some r => .ok r
  | none => .error .ub

/-- The size the source variable of an operation reports. -/
def srcSize (s : State α) : Option Nat → M Nat
  | none => .ok 0
  | some j => do
    let w ← s.var j
    .ok w.size

/-- One statement. -/
def step (cfg : Cfg) (zero : α) (s : RState α) : Stmt α → M (RState α)
  | .vec op => do
    let st ← Vec.step cfg zero s.st op
    .ok { s with st := st }
  | .whole i => .ok { s with rngs := s.rngs ++ [Range.whole i] }
  | .subFrom g a => do
    let r ← s.rng g
    let v ← s.st.var r.vec
    .ok { s with rngs := s.rngs ++ [Range.subFrom v.size r a] }
  | .subTo g b => do
    let r ← s.rng g
    let v ← s.st.var r.vec
    .ok { s with rngs := s.rngs ++ [Range.subTo v.size r b] }
  | .sub g a b => do
    let r ← s.rng g
    let v ← s.st.var r.vec
    .ok { s with rngs := s.rngs ++ [Range.sub v.size r a b] }
  | .use g op => do
    let r ← s.rng g
    let v ← s.st.var r.vec
    let m ← srcSize s.st op.src
    let ops ← calls v.size m r op
    let st ← Vec.run cfg zero s.st ops
    .ok { s with st := st }

/-- A whole program. -/
def run (cfg : Cfg) (zero : α) (s : RState α) : List (Stmt α) → M (RState α)
  | [] => .ok s
  | op :: ops => do
    let s ← step cfg zero s op
    run cfg zero s ops

/-- Nothing allocated, no variables, no ranges. -/
def start : RState α := { st := Vec.start, rngs := [] }

end Verif.Range
