/-!
# Model: starting child processes - `lib/spawn.fu`

The operating system's answers are inputs. Two parts: which descriptors the parent opens and closes (`spawn`), and what the
descriptors of the child are connected to when it starts (`childTable`).
-/
namespace Verif.Spawn

/-- An error number; 0 is none. -/
abbrev Errno := Nat

/-- No more descriptors. -/
def EMFILE : Errno := 24

/-- `enum ChildStream`, `lib/spawn.fu` 377-381. -/
inductive Mode where
  | ignore | parent | pipe
deriving DecidableEq, Repr

/-- `struct PosixPipe`, `lib/spawn.fu` 21-24; 0 stands for no descriptor. -/
structure Pipe where
  r : Nat := 0
  w : Nat := 0
deriving DecidableEq, Repr

/-- The generated `operator bool` of `PosixPipe` (`src/codegen.fu` 542-547): some field is not 0. -/
def Pipe.isSome (p : Pipe) : Bool := p.r != 0 || p.w != 0

/-- `struct Child`, `lib/spawn.fu` 341-346. -/
structure Child where
  pid : Nat := 0
  inFd : Nat := 0
  outFd : Nat := 0
  errFd : Nat := 0
deriving DecidableEq, Repr

/-- What happens to descriptors of the process. -/
inductive Obs where
  | create (fd : Nat)
  | close (fd : Nat)
deriving DecidableEq, Repr

/-- The open descriptors of the process, and what happened to them. -/
structure St where
  opened : List Nat
  trace : List Obs := []
deriving DecidableEq, Repr

/-- A value, or a failed assertion. -/
inductive R (α : Type) where
  | ok (a : α)
  | fault
deriving DecidableEq, Repr

/-- Sequencing. -/
def R.bind {α β : Type} : R α → (α → R β) → R β
  | .ok a, f => f a
  | .fault, _ => .fault

/-- `pipe`, `lib/spawn.fu` 70-120 (Linux). Descriptors that are in use are not a possible answer of `pipe2` and count as
"no more descriptors". -/
def pipe (s : St) : Except Errno (Nat × Nat) → St × Errno × Pipe
  | .error e => (s, if e = 0 then EMFILE else e, {})
  | .ok (r, w) =>
    if r ∉ s.opened ∧ w ∉ s.opened ∧ r ≠ w then
      ({ opened := w :: r :: s.opened, trace := s.trace ++ [.create r, .create w] }, 0, ⟨r, w⟩)
    else (s, EMFILE, {})

/-- `close_one` and `close_one_lax`, `lib/spawn.fu` 348-355, 393-400: the assertion, then `close`. The error of `close` is only
printed, or kept if there was none before; in `spawn` there always was one. -/
def closeOne (s : St) (fd : Nat) : R St :=
  if fd ≠ 0 then .ok { opened := s.opened.erase fd, trace := s.trace ++ [.close fd] } else .fault

/-- `close_both`, `lib/spawn.fu` 387-391. -/
def closeBoth (s : St) (p : Pipe) : R St := (closeOne s p.r).bind fun s => closeOne s p.w

/-- `if (mode == "Pipe") close_both(p)`. -/
def dropPipe (s : St) (m : Mode) (p : Pipe) : R St := if m = .pipe then closeBoth s p else .ok s

/-- `if (mode == "Pipe") close_one_lax(fd)`. -/
def dropEnd (s : St) (m : Mode) (fd : Nat) : R St := if m = .pipe then closeOne s fd else .ok s

/-- `mode == "Pipe" && (err = pipe(..))`: the state, the error, the pipe. -/
def mayPipe (s : St) (m : Mode) (a : Except Errno (Nat × Nat)) : St × Errno × Pipe :=
  if m = .pipe then pipe s a else (s, 0, {})

/-- The answers of the operating system to one `spawn`: three `pipe2` calls, and `posix_spawnp` (or the calls that prepare
it): an error or a process number. -/
structure Answers where
  out : Except Errno (Nat × Nat)
  err : Except Errno (Nat × Nat)
  inp : Except Errno (Nat × Nat)
  spawn : Except Errno Nat

/-- The end of `spawn`, `lib/spawn.fu` 438-459, after the pipes are made. `STDIN_FILENO` is 0. -/
def spawnEnd (s : St) (outM errM inM : Mode) (out err inp : Pipe) : Except Errno Nat → R (St × Errno × Child)
  | .error e =>
    (dropPipe s outM out).bind fun s => (dropPipe s errM err).bind fun s => (dropPipe s inM inp).bind fun s =>
    .ok (s, if e = 0 then EMFILE else e, {})
  | .ok pid =>
    (dropEnd s outM out.w).bind fun s => (dropEnd s errM err.w).bind fun s => (dropEnd s inM inp.r).bind fun s =>
    .ok (s, 0, ⟨pid, inp.w, out.r, err.r⟩)

/-- `spawn` with a `Child`, `lib/spawn.fu` 402-459. -/
def spawn (s : St) (outM errM inM : Mode) (a : Answers) : R (St × Errno × Child) :=
  match mayPipe s outM a.out with
  | (s, e, out) =>
    if e ≠ 0 then .ok (s, e, {})
    else
      match mayPipe s errM a.err with
      | (s, e, err) =>
        if e ≠ 0 then (dropPipe s outM out).bind fun s => .ok (s, e, {})
        else
          match mayPipe s inM a.inp with
          | (s, e, inp) =>
            if e ≠ 0 then (dropPipe s outM out).bind fun s => (dropPipe s errM err).bind fun s => .ok (s, e, {})
            else spawnEnd s outM errM inM out err inp a.spawn

/-- `close` of a child, `lib/spawn.fu` 357-372: the descriptors (waiting for the process is left out). -/
def closeChild (s : St) (c : Child) : R St :=
  (if c.outFd ≠ 0 then closeOne s c.outFd else .ok s).bind fun s =>
  (if c.errFd ≠ 0 then closeOne s c.errFd else .ok s).bind fun s =>
  if c.inFd ≠ 0 then closeOne s c.inFd else .ok s

/-! ## What the child gets -/

/-- What a descriptor is connected to. -/
inductive File where
  | devNull
  /-- what the parent has at this descriptor -/
  | parent (fd : Nat)
  /-- the end of a pipe that is at this descriptor in the parent -/
  | pipeEnd (fd : Nat)
deriving DecidableEq, Repr

/-- A descriptor table: what is there and whether it is closed at `exec`. -/
abbrev Table := Nat → Option (File × Bool)

/-- `posix_spawn` file actions. -/
inductive Action where
  | close (fd : Nat)
  | dup2 (a b : Nat)
  /-- open `/dev/null` with `O_CLOEXEC` -/
  | openNull (fd : Nat)
deriving DecidableEq, Repr

/-- The lambda `Pipe`, `lib/spawn.fu` 200-230, for standard input. -/
def actionsIn (p : Pipe) : List Action :=
  if p.isSome then
    (if p.w ≠ 0 then [.close p.w] else []) ++ [.dup2 p.r 0] ++ (if p.r ≠ 0 then [.close p.r] else [])
  else [.openNull 0]

/-- The lambda `Pipe`, `lib/spawn.fu` 200-230, for standard output (1) and error (2). -/
def actionsOut (p : Pipe) (which : Nat) : List Action :=
  if p.isSome then
    (if p.r ≠ 0 then [.close p.r] else []) ++ [.dup2 p.w which] ++ (if p.w ≠ which then [.close p.w] else [])
  else [.openNull which]

/-- All file actions, `lib/spawn.fu` 232-234; `Parent` puts the standard descriptor in the pipe, 434-436. -/
def actions (outM errM inM : Mode) (out err inp : Pipe) : List Action :=
  actionsIn (if inM = .parent then { inp with r := 0 } else inp) ++
  actionsOut (if outM = .parent then { out with w := 1 } else out) 1 ++
  actionsOut (if errM = .parent then { err with w := 2 } else err) 2

/-- Change a table. -/
def Table.set (t : Table) (fd : Nat) (x : Option (File × Bool)) : Table := fun n => if n = fd then x else t n

/-- A file action, as `posix_spawn_file_actions_*` and glibc define it; `none`: the spawn fails. `dup2` onto itself clears
the close-on-exec mark. `early` says whether the descriptor is closed before the file is opened: glibc does so, and since
the new file then gets this very descriptor (all below are open), no `dup2` clears its close-on-exec mark; musl does not, so the file gets
another number first and `dup2` clears the mark. -/
def act (early : Bool) (t : Table) : Action → Option Table
  | .close fd => some (t.set fd none)
  | .dup2 a b => (t a).map fun f => t.set b (some (f.1, false))
  | .openNull fd => some (t.set fd (some (.devNull, early)))

/-- Actions in order. -/
def runActions (early : Bool) (t : Table) : List Action → Option Table
  | [] => some t
  | a :: as => (act early t a).bind fun t => runActions early t as

/-- `exec`: what is marked is closed. -/
def exec (t : Table) : Nat → Option File := fun n =>
  match t n with
  | some (f, false) => some f
  | _ => none

/-- The table of the parent when it spawns: standard descriptors as given, pipe ends (made with `O_CLOEXEC`), anything else
`rest`. -/
def parentTable (ends : List Nat) (rest : Table) : Table := fun n =>
  if n ≤ 2 then some (.parent n, false) else if n ∈ ends then some (.pipeEnd n, true) else rest n

/-- The descriptors of the child when its program starts. -/
def childTable (early : Bool) (outM errM inM : Mode) (out err inp : Pipe) (rest : Table) : Option (Nat → Option File) :=
  (runActions early (parentTable [out.r, out.w, err.r, err.w, inp.r, inp.w] rest) (actions outM errM inM out err inp)).map exec

end Verif.Spawn
