import Verif.Basic
/-! # Which references a write invalidates

src/solver.fu:13652-13799 (`Reference_trackLocalRef`), 13869-13893 (the part of `bck_trackWrites` that says what a write to a
variable invalidates), src/lifetime.fu:964-996 (`Lifetime_hasInter`), 1347-1413 (`Lifetime_op_join`).

A lifetime is a list of variables and places in them. A place is a list of steps (a field, an element); that the code's byte
strings with flat offsets behave like this is C30, C31 and C55. The union of two lifetimes is both lists.

Not modelled: the masks that say which fields of a reference are used at all (`RWQuals.usage`; what is modelled of `RWQuals` is
whether the variable is ever written), and the tables `rg_children`, `is_arg`, `arg_parents`, which serve the second pass. -/
namespace Verif.RefGraph

abbrev Path := List Nat
/-- variables (locid, 0 for what is no local) and places in them -/
abbrev Lt := List (Nat × Path)

def meets (p q : Path) : Bool := p.isPrefixOf q || q.isPrefixOf p

/-- src/lifetime.fu:964-996 (`Lifetime_hasInter`, without masks) -/
def hasInter (a b : Lt) : Bool := a.any fun x => b.any fun y => decide (x.1 = y.1) && meets x.2 y.2

/-- src/lifetime.fu:1347-1413 (`Lifetime_op_join`, for one path) -/
def join (l : Lt) (c : Path) : Lt := l.map fun x => (x.1, x.2 ++ c)

structure Graph where
  /-- `rg_parents` -/
  parents : Nat → Lt
  /-- `rg_invalidates`; the code keeps lifetimes here but uses only their variables -/
  inv : Nat → List Nat

def Graph.empty : Graph := ⟨fun _ => [], fun _ => []⟩

/-- src/solver.fu:13664-13668, 13688-13711: the variables the reference is bound to, with what those are bound to -/
def ancestors (g : Graph) (right : Lt) : Lt := right ++ right.flatMap fun x => join (g.parents x.1) x.2

/-- src/solver.fu:13714, 13726-13754; `written` is `ever_written` -/
def siblings (written : Nat → Bool) (g : Graph) (left : Nat) (right : Lt) : List Nat :=
  (right.flatMap fun x => g.inv x.1).filter fun s =>
    (written left || written s) && hasInter (ancestors g right) (g.parents s)

/-- src/solver.fu:13652-13799 (`Reference_trackLocalRef`); `none` is the compiler's `BUG` -/
def track (written : Nat → Bool) (g : Graph) (left : Nat) (right0 : Lt) : Option Graph :=
  let right := right0.filter fun x => decide (x.1 ≠ 0)
  let parents := ancestors g right
  let sibs := siblings written g left right
  if !sibs.isEmpty && !(g.inv left).isEmpty || !parents.isEmpty && !(g.parents left).isEmpty then none
  else some {
    parents := fun v => if v = left ∧ parents ≠ [] then parents else g.parents v
    inv := fun v => (if v = left ∧ sibs ≠ [] then sibs else g.inv v)
      ++ (if sibs.contains v then [left] else []) ++ (if parents.any (fun x => decide (x.1 = v)) then [left] else []) }

/-- the bindings of a function, newest first -/
abbrev Hist := List (Nat × Lt)

/-- the graph after these bindings (`bck_let` 14054-14071, in order) -/
def build (written : Nat → Bool) : Hist → Option Graph
  | [] => some .empty
  | (l, right) :: older =>
    match build written older with
    | none => none
    | some g => track written g l right

/-- src/solver.fu:13869-13893: what a write to these places in `w` invalidates -/
def invalidated (g : Graph) (w : Nat) (paths : List Path) : List Nat :=
  let all := paths.map (fun p => (w, p)) ++ paths.flatMap (join (g.parents w))
  (g.inv w).filter fun x => hasInter (g.parents x) all

end Verif.RefGraph
