import Verif.Scope

/-!
# C94: what `break`, `continue` and `return` leave

Models `Scope_lookupReturn`, `Scope_lookupLabel` (src/solver.fu 9742-9818) and how the stack of blocks they
look through is built: `solveBlock` (5591-5606), `solveLoop` (9826-9864), the body of a function
(7695-7702) and what is hidden while it is solved (7380-7397).

Simplifications: of the data of a block only the flags and the label that the lookups ask for; a jump is
looked up in one place of the program, which is given by what it is nested in.
-/

namespace Verif.JumpScope

open Verif.Scope

/-- `HelpersData.mask` and `.id` (src/flags.fu 31-47, src/solver.fu 596-602). -/
structure H where
  canBreak : Bool := false
  canReturn : Bool := false
  anon : Bool := false
  lambda : Bool := false
  id : Str := []
deriving DecidableEq, Repr

/-- `_helpers` and `_ss.helpers` -/
structure St where
  helpers : List H
  skips : List ScopeSkip

/-! ## The lookups -/

/-- The loop of `Scope_lookupReturn` (src/solver.fu 9744-9754). -/
def goReturn (id : Str) (lambdaOK : Bool) : List (H × Int) → Option Int
  | [] => none
  | (item, i) :: r =>
    if !item.canReturn then goReturn id lambdaOK r
    else if item.lambda && !lambdaOK then goReturn id lambdaOK r
    else if id ≠ [] ∧ item.id ≠ id then goReturn id lambdaOK r
    else some i

/-- `Scope_lookupReturn` (src/solver.fu 9742-9757); `none`: it fails. -/
def lookupReturn (s : St) (id : Str) (lambdaOK : Bool) : Option Int :=
  (reveach s.helpers s.skips).bind (goReturn id lambdaOK)

/-- `_ss.helpers.each` (src/solver.fu 9801-9806). -/
def skipTo : List ScopeSkip → Int → Int
  | [], i => i
  | s :: r, i => if i = s.start then skipTo r s.stop else if i < s.start then i else skipTo r i

/-- The loop of `Scope_lookupLabel` (src/solver.fu 9763-9812); `below` is `CONTINUE_BELOW`. -/
def goLabel (s : St) (id : Str) (cont : Bool) (below : Int) : List (H × Int) → Option Int
  | [] => none
  | (item, i0) :: r =>
    let i := if i0 < below - 1 then i0 + 1 else i0
    if !item.canBreak then
      if below = 0 then
        if id ≠ [] || !item.lambda then goLabel s id cont below r
        else if !cont then goLabel s id cont i r
        else some i
      else some i
    else if below = 0 then
      if !(if id ≠ [] then decide (item.id = id) else item.anon) then goLabel s id cont below r
      else if cont then
        let i := skipTo s.skips (i + 1)
        if i < s.helpers.length then some i else none
      else some i
    else some i

/-- `Scope_lookupLabel` (src/solver.fu 9759-9818) -/
def lookupLabel (s : St) (id : Str) (cont : Bool) : Option Int :=
  (reveach s.helpers s.skips).bind (goLabel s id cont 0)

/-! ## The stack -/

/-- What a jump can be nested in. -/
inductive Place where
  /-- a block, with its label -/
  | block (id : Str)
  /-- the start or the condition of a loop -/
  | head (id : Str)
  /-- the body of a loop, which may have a label of its own -/
  | body (id bid : Str)
  /-- the step of a loop -/
  | step (id : Str)
  /-- the `on enter` block of a loop -/
  | enter (id eid : Str)
  /-- the body of a loop that has an `on enter` block -/
  | thn (id eid bid : Str)
  /-- the step of such a loop -/
  | stepOn (id eid : Str)
  /-- the condition at the end of such a loop -/
  | headOn (id eid : Str)
  /-- a function; `hidden` is what is being solved between its declaration and now -/
  | fn (id : Str) (hidden : List H)
  /-- a lambda; the first of `hidden` is the function it is passed to -/
  | lambda (id : Str) (hidden : List H)
deriving Repr

/-- `solveLoop`'s own (src/solver.fu 9837-9842). -/
def loopH (id : Str) : H := { canBreak := true, anon := true, id := id }

/-- What is pushed: `solveBlock` with the masks it is called with (src/solver.fu 5591, 5602, 7697-7701,
9860-9862).  The block of `on enter` is not popped before the body (5598), nor before what
is solved after it. -/
def Place.own : Place → List H
  | .block id => [{ canBreak := true, id := id }]
  | .head id => [loopH id]
  | .body id bid => [loopH id, { id := bid }]
  | .step id => [loopH id, { canBreak := true }]
  | .enter id eid => [loopH id, { id := eid }]
  | .thn id eid bid => [loopH id, { id := eid }, { id := bid }]
  | .stepOn id eid => [loopH id, { id := eid }, { canBreak := true }]
  | .headOn id eid => [loopH id, { id := eid }]
  | .fn id _ => [{ canReturn := true, id := id }]
  | .lambda id _ => [{ canReturn := true, lambda := true, id := id }]

/-- What is hidden before that (src/solver.fu 7387-7396). -/
def Place.hidden : Place → List H
  | .fn _ h | .lambda _ h => h
  | _ => []

/-- The stack at a place; the innermost comes first in the list.  Two are there from the start
(src/solver.fu 752, 5550-5552). -/
def build : List Place → Option St
  | [] => some ⟨[{}, {}], []⟩
  | p :: outer => (build outer).bind fun s =>
      (ScopeSkip_push s.skips s.helpers.length (s.helpers.length + p.hidden.length)).bind fun ss =>
        some ⟨s.helpers ++ p.hidden ++ p.own, ss⟩

end Verif.JumpScope
