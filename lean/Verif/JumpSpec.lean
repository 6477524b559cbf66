import Verif.JumpScope

/-!
# C94: what they are to leave

Specification: from the inside out.
-/

namespace Verif.JumpScope

/-- What a jump can leave: a part of the place that has these around it. -/
inductive Target where
  /-- the block, or all of the loop -/
  | whole (outer : List Place)
  /-- the body of the loop, or its step, or its `on enter` block: the part the jump is in -/
  | inner (outer : List Place)
  /-- the body, or the step, of a loop that has an `on enter` block -/
  | thenBody (outer : List Place)
  /-- the function or lambda -/
  | fn (hidden : List H) (outer : List Place)
  /-- the function the lambda is passed to -/
  | callee (outer : List Place)

/-- The label of a block or a loop. -/
def Place.label : Place → Option Str
  | .block id | .head id | .body id _ | .step id | .enter id _ | .thn id _ _ | .stepOn id _ | .headOn id _ => some id
  | .fn _ _ | .lambda _ _ => none

/-- The label of the body of a loop. -/
def Place.bodyLabel : Place → Option Str
  | .body _ b | .enter _ b | .thn _ _ b => some b
  | _ => none

/-- `break` leaves the innermost loop; in a lambda that is not in a loop of its own, the function it is
passed to. -/
def brk : List Place → Option Target
  | [] => none
  | .lambda _ _ :: o => some (.callee o)
  | .head _ :: o | .body _ _ :: o | .step _ :: o | .enter _ _ :: o | .thn _ _ _ :: o
  | .stepOn _ _ :: o | .headOn _ _ :: o => some (.whole o)
  | .block _ :: o | .fn _ _ :: o => brk o

/-- `break :L` leaves the innermost block or loop of that label. -/
def brkTo (l : Str) : List Place → Option Target
  | [] => none
  | p :: o => if p.label = some l then some (.whole o) else brkTo l o

/-- `continue` leaves the body of the innermost loop, or the lambda. -/
def cont : List Place → Option Target
  | [] => none
  | .lambda _ h :: o => some (.fn h o)
  | .body _ _ :: o | .step _ :: o | .enter _ _ :: o => some (.inner o)
  | .thn _ _ _ :: o | .stepOn _ _ :: o => some (.thenBody o)
  | .head _ :: _ | .headOn _ _ :: _ => none
  | .block _ :: o | .fn _ _ :: o => cont o

/-- All of a place. -/
def Place.all (o : List Place) : Place → Target
  | .fn _ h | .lambda _ h => .fn h o
  | _ => .whole o

/-- `continue :L` leaves the body of the innermost loop of that label; if `L` is a block, what is
immediately in it (as in `:L list.each: |x| …`). -/
def contTo (l : Str) : Option Target → List Place → Option Target
  | _, [] => none
  | inside, p :: o =>
    if p.label = some l then
      match p with
      | .body _ _ | .step _ | .enter _ _ => some (.inner o)
      | .thn _ _ _ | .stepOn _ _ => some (.thenBody o)
      | _ => inside
    else contTo l (some (p.all o)) o

/-- `return` leaves the innermost function that is not a lambda. -/
def ret : List Place → Option Target
  | [] => none
  | .fn _ h :: o => some (.fn h o)
  | _ :: o => ret o

/-- `return :F` leaves the innermost function of that name. -/
def retTo (l : Str) : List Place → Option Target
  | [] => none
  | .fn id h :: o => if id = l then some (.fn h o) else retTo l o
  | _ :: o => retTo l o

/-- The last statement of a body is what the function or lambda returns. -/
def retLast : List Place → Option Target
  | [] => none
  | .fn _ h :: o | .lambda _ h :: o => some (.fn h o)
  | _ :: o => retLast o

/-- How many are on the stack. -/
def size : List Place → Nat
  | [] => 2
  | p :: o => size o + p.hidden.length + p.own.length

/-- Where the target is on the stack. -/
def Target.pos : Target → Nat
  | .whole o => size o
  | .inner o => size o + 1
  | .thenBody o => size o + 2
  | .fn h o => size o + h.length
  | .callee o => size o

/-- A lambda is passed to some function. -/
def passed : Place → Prop
  | .lambda _ h => h ≠ []
  | _ => True

end Verif.JumpScope
