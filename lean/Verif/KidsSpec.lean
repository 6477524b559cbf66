import Verif.Kids
/-!
# What a program may rely on when its event loop has child processes

A reader of the trace keeps three tables: whose every open descriptor is, which children are there, and which child's a descriptor
is. `View.Step` says which observations are in order.
-/
namespace Verif.Kids
open Verif.Ev (Owner Ep)

/-- What a reader of the trace knows. -/
structure View where
  owner : Nat → Owner
  /-- announced and not yet announced closed -/
  kid : Nat → Bool
  /-- the child a descriptor belongs to, and what it is: 0 its pid descriptor, 1 to 3 its standard input, output and error -/
  pipe : Nat → Option (Nat × Nat)

/-- Nothing is open, no child is there. -/
def View.empty : View := ⟨fun _ => .free, fun _ => false, fun _ => none⟩

/-- Change the owner of a descriptor. -/
def View.own (v : View) (fd : Nat) (o : Owner) : View := { v with owner := fun n => if n = fd then o else v.owner n }

/-- A descriptor is closed: it is no child's. -/
def View.drop (v : View) (fd : Nat) : View :=
  { v with owner := fun n => if n = fd then .free else v.owner n, pipe := fun n => if n = fd then none else v.pipe n }

/-- A child is there or not. -/
def View.setKid (v : View) (pid : Nat) (b : Bool) : View := { v with kid := fun p => if p = pid then b else v.kid p }

/-- A descriptor of a child; 0 is none. -/
def View.addPipe (v : View) (fd pid which : Nat) : View :=
  if fd = 0 then v else { v with pipe := fun n => if n = fd then some (pid, which) else v.pipe n }

/-- A descriptor that can become one of a new child, or 0. -/
def View.ready (v : View) (fd : Nat) : Prop := fd = 0 ∨ (v.owner fd = .loop ∧ v.pipe fd = none)

/-- The rules. Descriptors are opened when free; each party closes only what is its own. A child is announced when there is
none with this number, and its descriptors are open and new. It has an event only while it is there, and something is
reported available. A read is of its own open pipe. It is announced closed once, when none of its descriptors is open. Only children
that are there are sent signals. -/
inductive View.Step : View → Obs → View → Prop where
  | userOpen (v : View) (fd : Nat) : v.owner fd = .free → Step v (.userOpen fd) (v.own fd .program)
  | userClose (v : View) (fd : Nat) : v.owner fd = .program → Step v (.userClose fd) (v.own fd .free)
  | create (v : View) (fd : Nat) : v.owner fd = .free → Step v (.create fd) (v.own fd .loop)
  | close (v : View) (fd : Nat) : v.owner fd = .loop → Step v (.close fd) (v.drop fd)
  | spawned (v : View) (pid d a b c : Nat) : v.kid pid = false → 0 < pid → v.ready d → v.ready a → v.ready b → v.ready c →
      ([d, a, b, c].filter (· != 0)).Nodup →
      Step v (.spawned pid d a b c) (((((v.setKid pid true).addPipe d pid 0).addPipe a pid 1).addPipe b pid 2).addPipe c pid 3)
  | event (v : View) (pid : Nat) (w o e : Bool) : v.kid pid = true → (w || o || e) = true → Step v (.event pid w o e) v
  | read (v : View) (pid which fd : Nat) : v.kid pid = true → v.owner fd = .loop → v.pipe fd = some (pid, which + 1) →
      Step v (.read pid which fd) v
  | closed (v : View) (pid e : Nat) : v.kid pid = true → (∀ n i, v.pipe n ≠ some (pid, i)) →
      Step v (.closed pid e) (v.setKid pid false)
  | kill (v : View) (pid : Nat) : v.kid pid = true → Step v (.kill pid) v
  | term (v : View) (pid : Nat) : v.kid pid = true → Step v (.term pid) v

/-- A trace in which no rule is broken, and what is known at its end. -/
inductive Reads : List Obs → View → Prop where
  | nil : Reads [] View.empty
  | snoc {t : List Obs} {v v' : View} {o : Obs} : Reads t v → v.Step o v' → Reads (t ++ [o]) v'

/-- The child an event of a batch belongs to, and whether the event is its end. -/
def About (p q : Nat × Ep) : Prop := Ev.kindOf p.1 = some .pidfd ∧ Ev.fdOf p.1 = Ev.fdOf q.1

/-- Runs in which no batch has an event of a child after its end, and no error is reported for a pipe or by a read. The
code does not handle the others well: `KidsBad`. -/
inductive CalmReach (dbg : Bool) : St → Prop where
  | start (own : List Nat) (fd : Nat) (as : List Act) (s : St) :
      own.Nodup → freshFd (before own) fd → start dbg own fd as = .ok s → CalmReach dbg s
  | wait (s : St) (evs : List (Nat × Ep)) : CalmReach dbg s → s.ended = false → s.pending = [] → (evs.map (·.1)).Nodup →
      (∀ e ∈ evs, ∃ r, s.reg e.1 = some r ∧ r.armed = true ∧ Ev.Allowed r e.2) →
      (∀ e ∈ evs, e.2.err = false) → (deliver s evs).pending.Pairwise (fun p q => ¬ About p q) →
      CalmReach dbg (deliver s evs)
  | handle (s : St) (c : Choice) (s' : St) : CalmReach dbg s → s.ended = false →
      (∀ b e n, Call.read b e n ∈ c.calls → e = 0 ∨ e = Ev.EAGAIN) →
      handle dbg s c = .ok s' → CalmReach dbg s'
  | stop (s : St) (s' : St) : CalmReach dbg s → s.ended = false → finish s = .ok s' → CalmReach dbg s'

end Verif.Kids
