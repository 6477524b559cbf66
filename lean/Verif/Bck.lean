import Verif.Basic
/-! # The borrow checker's flow analysis

src/solver.fu: `Events_merge` (154-170), `Events_restore` (172-205), the loop starts recorded by `propagateType` on its way
backwards (4190-4210, 4358-4386, 4403-4432, 4498, 4544-4623, 4646, 4671, 5136-5144, 5367-5412) and the walk forwards that
uses them (`bck_trackRead` 13802-13840, `bck_trackWrites` 13845-14029, `bck_trackInit` 14031-14051, `bck_let` 14054-14079,
`bck_loop` 14412-14431, `bck_if` 14433-14469, `bck_and_or` 14471-14502, `bck_block` 14516-14583, `bck_node` 14588-14661).

A variable is its position in a function's table of arguments and locals: `args_neg + locid` (376-437), so arguments come first
and the variable at position `v` has the locid `v - args_neg`.

Not modelled: which references a write invalidates (the reference graph, a parameter here), several writes at one call (a
sequence of writes), conditions known at compile time (C91), `try`, `defer`, arguments that are written while others are bound
(`preceding_ref_args`, `validate`), the second pass for arguments at risk. -/
namespace Verif.Bck

/-- a function body after `propagateType`, as far as the borrow checker cares -/
inductive Node where
  | skip
  /-- a variable is used -/
  | read (v : Nat)
  /-- a call that writes to `w`; its arguments are nodes before it -/
  | write (w : Nat)
  | seq (a b : Node)
  /-- `ref v = init` -/
  | bind (v : Nat) (init : Node)
  /-- a block with label `h`; its items are a `seq` (a block the compiler made itself has no label and is just that `seq`) -/
  | block (h : Nat) (body : Node)
  | cond (c a b : Node)
  /-- what may be skipped: the items of an `and` or `or` after the first, `a && b && c` being `seq a (opt (seq b (opt c)))` -/
  | opt (n : Node)
  /-- a loop with label `h` whose variables start at locid `s`; `again` is the preheader (an `opt`), body, post and
  post-condition in sequence -/
  | loop (h : Nat) (s : Nat) (init cond again : Node)
  | jump (h : Nat) (e : Node)
  deriving DecidableEq, Repr

/-- a loop start; `none` is `NO_LOOP`, which the code has as a very small number (36) -/
abbrev Start := Option Nat

/-- src/solver.fu:465-477 (`branch`): the larger loop start -/
def later : Start → Start → Start
  | none, b => b
  | some a, none => some a
  | some a, some b => some (max a b)

/-- labels and what comes after them: `helpers.postdom.write_loop_start` -/
abbrev Env := Nat → Start

def Env.set (env : Env) (h : Nat) (p : Start) : Env := fun h' => if h' = h then p else env h'

/-- `propagateType` goes backwards: from the write_loop_start after a node to the one before it -/
def before (env : Env) : Node → Start → Start
  | .skip, p => p
  | .read _, p => p
  | .write _, p => p
  | .seq a b, p => before env a (before env b p)
  | .bind _ i, p => before env i p
  -- src/solver.fu:5367-5369, 4190-4195, 4208-4209
  | .block h b, p => later (before (env.set h p) b p) p
  -- src/solver.fu:4410-4432
  | .cond c a b, p => before env c (later (before env a p) (before env b p))
  -- src/solver.fu:4364-4386
  | .opt n, p => later (before env n p) p
  -- src/solver.fu:4551-4611
  | .loop _ _ i _ _, p => before env i p
  -- src/solver.fu:5141-5144
  | .jump h e, _ => before env e (env h)

/-- `LocidMap(flat::Set(WriteID))`: for every position, the writes that invalidated it -/
abbrev Events := List (List Nat)

/-- is anything recorded at that position? (`if(exists:)`, src/solver.fu:429-432) -/
def Events.hit (m : Events) (v : Nat) : Bool := !(m.getD v []).isEmpty

/-- src/solver.fu:434-437 (`ensure(exists:)`): make sure there is such a position -/
def grow (m : Events) (n : Nat) : Events := m ++ List.replicate (n - m.length) []

/-- src/solver.fu:14010-14014: `set.keys_asc ||= [ writeID ]` -/
def Events.note (m : Events) (v w : Nat) : Events :=
  (grow m (v + 1)).modify v fun s => if s.isEmpty then [w] else s

/-- src/solver.fu:13834: `events.invalidated_by[target] = []` -/
def Events.forget (m : Events) (v : Nat) : Events := m.modify v fun _ => []

/-- src/solver.fu:156-166 (`Events_merge`) -/
def merge (dest src : Events) : Events :=
  (grow dest src.length).mapIdx fun i s => s ++ (src.getD i []).filter (fun w => !s.contains w)

/-- src/solver.fu:172-205 (`Events_restore`): the position cut at is the loop's first *locid* -/
def restore (events src : Events) : Start → Events
  | none => src
  | some s =>
    let dest := events.take s
    if src.length > s then grow dest s ++ src.drop s else dest

/-- what the checker knows about the function -/
structure Cfg where
  /-- the number of arguments -/
  neg : Nat
  /-- the references a write invalidates, once all are known -/
  inv : Nat → List Nat
  /-- variables that become copies when need be (`RESOLVE_byMutvar`) -/
  copies : Nat → Bool

structure St where
  inval : Events
  used : List Nat
  postevt : Nat → Events
  /-- the references in the reference graph so far -/
  known : List Nat

inductive Stop where
  /-- an error message -/
  | refused
  /-- the compiler stops with `BUG` -/
  | bug
  deriving DecidableEq, Repr

/-- is the variable older than the loop? `target < loop_start` -/
def Cfg.outside (c : Cfg) (v : Nat) : Start → Bool
  | none => false
  | some s => decide (v < s + c.neg)

/-- src/solver.fu:386-391 (`clear(start:)`) -/
def Cfg.clear (c : Cfg) (used : List Nat) : Start → List Nat
  | none => []
  | some s => used.filter fun v => decide (v < s + c.neg)

/-- src/solver.fu:13802-13840 (`bck_trackRead`) -/
def trackRead (c : Cfg) (r : Start) (v : Nat) (σ : St) : Except Stop St :=
  let track (σ : St) : St := if c.outside v r then { σ with used := v :: σ.used } else σ
  if σ.inval.hit v then
    if c.copies v then .ok (track { σ with inval := σ.inval.forget v }) else .error .refused
  else .ok (track σ)

/-- src/solver.fu:13845-14029 (`bck_trackWrites`), for one write -/
def trackWrite (c : Cfg) (p : Start) (w : Nat) (σ : St) : Except Stop St :=
  let invalidates := (c.inv w).filter fun v => σ.known.contains v
  if invalidates.any fun v => c.outside v p && σ.used.contains v && !c.copies v then .error .refused
  else .ok { σ with inval := invalidates.foldl (fun m v => m.note v w) σ.inval }

/-- the walk. `r` is the read_loop_start (the innermost loop: set at 4556, put back at 4600, kept by jumps at 5139-5144), `p`
the write_loop_start after the node. -/
def bck (c : Cfg) (env : Env) (r : Start) : Start → Node → St → Except Stop St
  | _, .skip, σ => .ok σ
  | _, .read v, σ => trackRead c r v σ
  | p, .write w, σ => trackWrite c p w σ
  | p, .seq a b, σ =>
    match bck c env r (before env b p) a σ with
    | .error e => .error e
    | .ok σ => bck c env r p b σ
  -- src/solver.fu:14054-14079
  | p, .bind v i, σ =>
    match bck c env r p i σ with
    | .error e => .error e
    | .ok σ => if σ.inval.hit v then .error .bug else .ok { σ with known := v :: σ.known }
  -- src/solver.fu:14516-14583
  | p, .block h b, σ =>
    match bck c (env.set h p) r p b σ with
    | .error e => .error e
    | .ok σ => .ok { σ with inval := merge σ.inval (σ.postevt h) }
  -- src/solver.fu:14433-14469
  | p, .cond x a b, σ =>
    match bck c env r (later (before env a p) (before env b p)) x σ with
    | .error e => .error e
    | .ok σ0 =>
      match bck c env r p a σ0 with
      | .error e => .error e
      | .ok σ1 =>
        match bck c env r p b { σ1 with inval := restore σ1.inval σ0.inval (before env (.cond x a b) p) } with
        | .error e => .error e
        | .ok σ2 => .ok { σ2 with inval := merge σ2.inval σ1.inval }
  -- src/solver.fu:14471-14502
  | p, .opt n, σ => bck c env r p n σ
  -- src/solver.fu:14412-14431
  | p, .loop h s i x a, σ =>
    let used0 := σ.used
    match bck c env r p i { σ with used := c.clear σ.used (before env i p) } with
    | .error e => .error e
    | .ok σ =>
      match bck c (env.set h p) (some s) (before (env.set h p) a (some s)) x σ with
      | .error e => .error e
      | .ok σ =>
        match bck c (env.set h p) (some s) (some s) a σ with
        | .error e => .error e
        | .ok σ => .ok { σ with used := used0 ++ c.clear σ.used r }
  -- src/solver.fu:14637-14661
  | _, .jump h e, σ =>
    match bck c env r (env h) e σ with
    | .error e => .error e
    | .ok σ =>
      .ok { σ with
        postevt := fun h' => if h' = h then merge (σ.postevt h) σ.inval else σ.postevt h'
        inval := restore σ.inval [] (env h) }

/-- src/solver.fu:457-463 (`Postdom_resetAtFnEnd`), 14664: a function's body is a block; `args` are the reference arguments -/
def check (c : Cfg) (args : List Nat) (h : Nat) (body : Node) : Except Stop St :=
  bck c (fun _ => none) none none (.block h body) ⟨[], [], fun _ => [], args⟩

end Verif.Bck
