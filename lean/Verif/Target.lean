import Verif.Helpers
/-!
# Packed targets and evaluation order - src/module.fu, src/types.fu, src/scope.fu

A `Target` names a declaration: module, global index in it, local index (negative for arguments) in one 64-bit word.
-/
namespace Verif.Target
open Verif Verif.Helpers

/-- src/module.fu:539-540 (`sign_rotate`) -/
def signRotate (v : BitVec 32) : BitVec 32 := (v <<< 1) ^^^ (if v.slt 0#32 then 0xffffffff#32 else 0#32)

/-- src/module.fu:542-543 (`sign_unrotate`) -/
def signUnrotate (v : BitVec 32) : BitVec 32 := (v >>> 1) ^^^ (if v &&& 1#32 ≠ 0#32 then 0xffffffff#32 else 0#32)

/-- src/module.fu:212-215 (`Target`): the packed word -/
abbrev Packed := BitVec 64

/-- src/module.fu:554 (`modid`) -/
def modid (t : Packed) : BitVec 32 := ((t >>> 40) &&& 0xfffff#64).setWidth 32
/-- src/module.fu:555 (`globid`) -/
def globid (t : Packed) : BitVec 32 := ((t >>> 20) &&& 0xfffff#64).setWidth 32
/-- src/module.fu:556 (`locid`) -/
def locid (t : Packed) : BitVec 32 := signUnrotate ((t &&& 0xfffff#64).setWidth 32)

/-- src/module.fu:558-566 (`Target(modid, globid, locid)`); `i32` to `u64` sign-extends, `u32` to `u64` zero-extends. -/
def mk (m g l : BitVec 32) : Except Err Packed :=
  if (0#32).sle m && (0#32).slt g then
    .ok (m.signExtend 64 <<< 40 ||| g.signExtend 64 <<< 20 ||| (signRotate l).setWidth 64)
  else .error .thrown

/-- src/module.fu:569 (`isArg`) -/
def isArg (t : Packed) : Bool := (locid t).slt 0#32

/-- src/module.fu:575-582 (`parseLocalOrGlobal`): the target and the new offset -/
def parseLocalOrGlobal (s : Str) (offset : Nat) : Except Err (Packed × Nat) := do
  let (m, offset) ← parseVarint s offset
  let (g, offset) ← parseVarint s offset
  let (l, offset) ← parseVarint s offset
  let t ← mk m g (signUnrotate l)
  .ok (t, offset)

/-- src/module.fu:584-592 (`appendLocalOrGlobal`): the string afterwards -/
def appendLocalOrGlobal (s : Str) (t : Packed) : Except Err Str :=
  if (0#32).sle (modid t) && (0#32).slt (globid t) then
    .ok (appendVarint (appendVarint (appendVarint s (modid t)) (globid t)) (signRotate (locid t)))
  else .error .thrown

/-- src/module.fu:597-603 (`parseGlobal`) -/
def parseGlobal (s : Str) (offset : Nat) : Except Err (Packed × Nat) := do
  let (m, offset) ← parseVarint s offset
  let (g, offset) ← parseVarint s offset
  let t ← mk m g 0#32
  .ok (t, offset)

/-- src/module.fu:605-612 (`appendGlobal`) -/
def appendGlobal (s : Str) (t : Packed) : Except Err Str :=
  if (0#32).sle (modid t) && (0#32).slt (globid t) && locid t == 0#32 then
    .ok (appendVarint (appendVarint s (modid t)) (globid t))
  else .error .thrown

/-- src/types.fu:480-487 (`packAddrOfFn`) -/
def packAddrOfFn (ts : List Packed) : Except Err Str := ts.foldlM appendLocalOrGlobal [ch '@']

/-- src/types.fu:495-500: the loop of `unpackAddrOfFn`; the visited targets, in order.  A target takes at least one
byte, so the recursion is bounded by what is left of the string. -/
def unpackLoop (s : Str) : Nat → Nat → Except Err (List Packed)
  | 0, _ => .ok []
  | fuel + 1, offset =>
    if offset < s.length then do
      let (mi, offset) ← parseLocalOrGlobal s offset
      let t ← mk (modid mi) (globid mi) (locid mi)
      let ts ← unpackLoop s fuel offset
      .ok (t :: ts)
    else .ok []

/-- src/types.fu:489-501 (`unpackAddrOfFn`) -/
def unpackAddrOfFn (s : Str) : Except Err (List Packed) :=
  if s.head? = some (ch '@') then unpackLoop s s.length 1 else .error .thrown

/-! ### items of a scope -/

/-- src/scope.fu:37-39 (`ScopeItem`): the packed word of an item -/
def scopeItem (t : Packed) (shadows : Bool) : BitVec 64 :=
  (t &&& 0x3fffffffffffffff#64) ||| (if shadows then 0x8000000000000000#64 else 0#64)

/-- src/scope.fu:22-23 (`target`) -/
def itemTarget (i : BitVec 64) : Packed := i &&& 0x3fffffffffffffff#64
/-- src/scope.fu:25-26 (`ScopeItem_shadows`) -/
def itemShadows (i : BitVec 64) : Bool := i &&& 0x8000000000000000#64 ≠ 0#64
/-- src/scope.fu:28-29 (`ScopeItem_canSkipRest`) -/
def itemSkip (i : BitVec 64) : Bool := i &&& 0x4000000000000000#64 ≠ 0#64
/-- src/scope.fu:31-32 (`ScopeItem_canSkipRest_set`) -/
def itemSkipSet (i : BitVec 64) : BitVec 64 := i ||| 0x4000000000000000#64
/-- src/scope.fu:34-35 (`ScopeItem_canSkipRest_clear`) -/
def itemSkipClear (i : BitVec 64) : BitVec 64 := i &&& ~~~0x4000000000000000#64

/-! ### locals of a function -/

/-- src/module.fu:331-359 (`Extended`): how many arguments, and the overloads of arguments and locals -/
structure Ext (α : Type) where
  argsNeg : Int
  items : List α

variable {α : Type}

/-- src/module.fu:519-527 (`indexOfLocal`) -/
def indexOfLocal (e : Ext α) (locid : Int) : Int := e.argsNeg - (if locid > 0 then 1 else 0) + locid

/-- src/module.fu:529-534 (`nextIndexOfLocal`) -/
def nextIndexOfLocal (e : Ext α) (asArgument : Bool) : Int :=
  if asArgument then -1 - e.argsNeg else e.items.length + (1 - e.argsNeg)

/-- src/scope.fu:380-403 (`Scope_create` with `nest`): a new argument or local; its local index and the function after.
`insert` puts arguments first, locals last. -/
def createLocal (e : Ext α) (x : α) (asArgument : Bool) : Int × Ext α :=
  let position := nextIndexOfLocal e asArgument
  let argsNeg := e.argsNeg + if asArgument then 1 else 0
  (position, { argsNeg := argsNeg, items := if asArgument then x :: e.items else e.items ++ [x] })

/-! ### order of evaluation of arguments -/

/-- What the visitor of `argsForward`/`argsReverse` is told: the argument's index, its place in the sequence, whether
it is evaluated last. -/
structure Visit where
  i : Nat
  seq : Nat
  isLast : Bool
  deriving DecidableEq

/-- src/module.fu:439, 483: which pass an argument belongs to; `late i` is `F_IMPLICIT || is_mutref` of argument `i` -/
def inPass (rtl : Bool) (late : Nat → Bool) (pass : Bool) (i : Nat) : Bool :=
  pass == (if rtl then i == 0 else late i)

/-- src/module.fu:436-451: the inner loop of `argsForward`, from argument `i` on: visits, next sequence number, whether an argument was left for the other pass -/
def fwdPass (rtl : Bool) (late : Nat → Bool) (n start : Nat) (pass : Bool) (i seq : Nat) (again : Bool) : List Visit × Nat × Bool :=
  if i < n then
    if inPass rtl late pass i then
      let (vs, r) := fwdPass rtl late n start pass (i + 1) (seq + 1) again
      (if start ≤ seq then ({ i := i, seq := seq, isLast := (seq : Int) == (n : Int) - 1 } :: vs, r) else (vs, r))
    else fwdPass rtl late n start pass (i + 1) seq true
  else ([], seq, again)
termination_by n - i

/-- src/module.fu:427-453 (`argsForward`): what the visitor sees, in order.  `lastPass` becomes 2 if the first pass leaves an argument out. -/
def argsForward (rtl : Bool) (late : Nat → Bool) (n start : Nat) : List Visit :=
  let (vs, seq, again) := fwdPass rtl late n start false 0 0 false
  if again then vs ++ (fwdPass rtl late n start true 0 seq true).1 else vs

/-- src/module.fu:480-494: the inner loop of `argsReverse`, for the arguments below `i`.  `seq` counts from the end. -/
def revPass (rtl : Bool) (late : Nat → Bool) (pass : Bool) : Nat → Nat → Bool → Bool → List Visit × Nat × Bool × Bool
  | 0, seq, first, again => ([], seq, first, again)
  | i + 1, seq, first, again =>
    if inPass rtl late pass i then
      let (vs, r) := revPass rtl late pass i (seq + 1) false again
      ({ i := i, seq := seq, isLast := first } :: vs, r)
    else revPass rtl late pass i seq first true

/-- src/module.fu:471-496 (`argsReverse`): pass 1 first, and pass 0 if that left an argument out -/
def argsReverse (rtl : Bool) (late : Nat → Bool) (n : Nat) : List Visit :=
  let (vs, seq, first, again) := revPass rtl late true n 0 true false
  if again then vs ++ (revPass rtl late false n seq first true).1 else vs

end Verif.Target
