import Verif.Basic
/-!
# Slot pools - lib/ev/Pool.fu

`none` is a fault: a failed assertion or an index out of bounds.  Slots and links are `i32`; here integers (a pool of 2^31
items does not fit in memory).
-/
namespace Verif.Pool
open Verif

/-- lib/ev/HTTP.fu:35-36, 53 (`Pool__next_free`): the field of an item the pool uses as its link while the item is free, and
a fresh item (`T()`, whose fields are all zero).  A record, with its laws: a field is what was last stored in it. -/
structure Link (T : Type) where
  next : T → Int
  setNext : T → Int → T
  fresh : T
  next_set : ∀ t n, next (setNext t n) = n
  set_set : ∀ t a b, setNext (setNext t a) b = setNext t b
  set_fresh : setNext fresh 0 = fresh

/-- lib/ev/Pool.fu:2-10 (`Pool`) -/
structure Pool (T : Type) where
  items : List T
  first_free : Int
  debug : BitVec 32
  deriving DecidableEq

/-- the pool one starts with: all fields zero -/
def empty {T : Type} : Pool T := ⟨[], 0, 0#32⟩

/-- lib/ev/Pool.fu:18-19, 46-47, 74-75: the bit for position `i` in `debug` -/
def marked {T : Type} (p : Pool T) (i : Nat) : Bool := p.debug &&& (1#32 <<< i) != 0#32

/-- lib/ev/Pool.fu:12-22 (`[]`); `dbg` is `process::DEBUG` -/
def get {T : Type} (dbg : Bool) (p : Pool T) (slot : Int) : Option T :=
  if ¬ slot > 0 then none
  else
    let i := (slot - 1).toNat
    if dbg = true ∧ i < 32 ∧ ¬ marked p i = true then none
    else p.items[i]?

/-- an assignment through the reference `[]` returns -/
def put {T : Type} (dbg : Bool) (p : Pool T) (slot : Int) (x : T) : Option (Pool T) :=
  (get dbg p slot).map fun _ => { p with items := p.items.set (slot - 1).toNat x }

/-- lib/ev/Pool.fu:44-51: the end of `alloc` -/
def allocEnd {T : Type} (dbg : Bool) (p : Pool T) (i : Nat) : Option (Pool T × Int) :=
  if dbg = true ∧ i < 32 then
    if marked p i = true then none
    else some ({ p with debug := p.debug ||| (1#32 <<< i) }, (i : Int) + 1)
  else some (p, (i : Int) + 1)

/-- lib/ev/Pool.fu:24-52 (`alloc`) -/
def alloc {T : Type} (L : Link T) (dbg : Bool) (p : Pool T) : Option (Pool T × Int) :=
  if ¬ p.first_free ≥ 0 then none
  else
    if p.first_free - 1 ≥ 0 then
      let i := (p.first_free - 1).toNat
      match p.items[i]? with
      | none => none
      | some item =>
        if ¬ L.next item ≥ 0 then none
        else allocEnd dbg { p with items := p.items.set i (L.setNext item 0), first_free := L.next item } i
    else allocEnd dbg { p with items := p.items ++ [L.fresh] } p.items.length

/-- lib/ev/Pool.fu:54-79 (`free`); the caller's `slot` becomes 0 -/
def free {T : Type} (L : Link T) (dbg : Bool) (p : Pool T) (slot : Int) : Option (Pool T) :=
  if ¬ slot > 0 then none
  else
    let i := (slot - 1).toNat
    match p.items[i]? with
    | none => none
    | some _ =>
      let p' : Pool T := { p with items := p.items.set i (L.setNext L.fresh p.first_free), first_free := (i : Int) + 1 }
      if dbg = true ∧ i < 32 then
        if ¬ marked p i = true then none
        else some { p' with debug := p'.debug &&& ~~~(1#32 <<< i) }
      else some p'

/-- what a user does with a pool -/
inductive Op (T : Type) where
  | alloc
  | free (slot : Int)
  | write (slot : Int) (x : T)

/-- a pool together with what its user knows: which slots it was given and has not freed, and what it put there -/
structure World (T : Type) where
  pool : Pool T
  live : List (Int × T)
  /-- the slot given by the last `alloc` -/
  last : Int
  /-- the most slots ever in use at a time -/
  peak : Nat

/-- one request; `none`: a fault -/
def step {T : Type} (L : Link T) (dbg : Bool) (w : World T) : Op T → Option (World T)
  | .alloc => (alloc L dbg w.pool).map fun (p, slot) => ⟨p, (slot, L.fresh) :: w.live, slot, max w.peak (w.live.length + 1)⟩
  | .free slot => (free L dbg w.pool slot).map fun p => { w with pool := p, live := w.live.filter fun e => e.1 ≠ slot }
  | .write slot x => (put dbg w.pool slot x).map fun p =>
      { w with pool := p, live := w.live.map fun e => if e.1 = slot then (slot, x) else e }

/-- the user only frees and writes what it holds -/
def Fair {T : Type} (w : World T) : Op T → Prop
  | .alloc => True
  | .free slot => ∃ x, (slot, x) ∈ w.live
  | .write slot _ => ∃ x, (slot, x) ∈ w.live

/-- a fair history from an empty pool -/
inductive Reach {T : Type} (L : Link T) (dbg : Bool) : World T → Prop where
  | start : Reach L dbg ⟨empty, [], 0, 0⟩
  | step {w w' : World T} (op : Op T) : Reach L dbg w → Fair w op → step L dbg w op = some w' → Reach L dbg w'

end Verif.Pool
