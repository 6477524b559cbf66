import Verif.EvLoop
/-!
# What a program may rely on when it runs an event loop

A reader of the trace keeps two tables: whose every open descriptor is, and which connections are live, with the tag the
program gave them. `View.step` says which observations are in order.
-/
namespace Verif.Ev

/-- Whose a descriptor is. -/
inductive Owner where
  | free | program | loop
deriving DecidableEq, Repr

/-- What a reader of the trace knows. -/
structure View where
  owner : Nat → Owner
  live : Nat → Option (BitVec 32)

/-- Nothing is open. -/
def View.empty : View := ⟨fun _ => .free, fun _ => none⟩

/-- Change the owner of a descriptor. -/
def View.own (v : View) (fd : Nat) (o : Owner) : View := { v with owner := fun n => if n = fd then o else v.owner n }

/-- Change a connection. -/
def View.set (v : View) (fd : Nat) (t : Option (BitVec 32)) : View :=
  { v with live := fun n => if n = fd then t else v.live n }

/-- The rules. Descriptors are opened when free; each party closes only what is its own; a connection is announced once,
with a tag; all its events carry that tag and come while its descriptor is open; it is announced closed once, with its
tag, when its descriptor has just been closed. `none` is a broken rule. -/
def View.step (v : View) : Obs → Option View
  | .userOpen fd => if v.owner fd = .free then some (v.own fd .program) else none
  | .userClose fd => if v.owner fd = .program then some (v.own fd .free) else none
  | .create fd => if v.owner fd = .free then some (v.own fd .loop) else none
  | .close fd => if v.owner fd = .loop then some (v.own fd .free) else none
  | .accepted fd tag => if v.owner fd = .loop ∧ v.live fd = none then some (v.set fd (some tag)) else none
  | .event fd tag r w =>
    if v.owner fd = .loop ∧ v.live fd = some tag ∧ (r = true ∨ w = true) then some v else none
  | .closed fd tag _ => if v.owner fd = .free ∧ v.live fd = some tag then some (v.set fd none) else none
  | .failed fd e => if v.owner fd = .loop ∧ v.live fd = none ∧ e ≠ 0 then some v else none
  | .watched fd => if v.owner fd = .loop ∧ v.live fd = none then some v else none

/-- Reading a trace. -/
def View.read (v : View) : List Obs → Option View
  | [] => some v
  | o :: os => (v.step o).bind fun v => v.read os

/-- A trace in which no rule is broken, and what is known at its end. -/
def Reads (t : List Obs) (v : View) : Prop := View.empty.read t = some v

end Verif.Ev
