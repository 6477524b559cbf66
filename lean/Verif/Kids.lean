import Verif.EvSpec
import Verif.Pool
/-!
# Model: child processes in the event loop - `lib/ev/Loop.fu`, Linux branches

As in `EvLoop`, the program's callbacks and the kernel are inputs. Sockets, watches and signals are left out: they are in
`EvLoop` and share nothing with children but `must_close`.

Simplifications: `must_close` and `must_sigkill` (`BitSet`, property C15) are lists without repetitions; `Pool__next_free`, which
shares its bytes with the pid descriptor of a record not in use, is a field of its own; `in_write` is left out: it uses a variable that
does not exist (`data`, line 919), so a program that calls it does not compile.
-/
namespace Verif.Kids
open Verif.Ev (Errno EAGAIN EPIPE EMFILE Kind pack kindOf fdOf Ep Reg evErr Owner)

/-! ## The record of a child -/

/-- `Meta`, `lib/ev/Loop.fu` 7-17: `meta_u128`, `tail_u32`, `Pool__next_free`. The other fields are not used. -/
structure Meta where
  word : BitVec 128
  tail : BitVec 32
  next : Int
deriving DecidableEq, Repr

/-- `Meta` as an item of a `Pool`. -/
def link : Pool.Link Meta where
  next := Meta.next
  setNext m n := { m with next := n }
  fresh := ⟨0, 0, 0⟩
  next_set _ _ := rfl
  set_set _ _ _ := rfl
  set_fresh := rfl

/-- The word `spawn` stores, `lib/ev/Loop.fu` 249-253. -/
def packWord (pidFd inFd outFd errFd : Nat) : BitVec 128 :=
  BitVec.ofNat 128 pidFd ||| (BitVec.ofNat 128 inFd <<< 32) ||| (BitVec.ofNat 128 outFd <<< 64) |||
    (BitVec.ofNat 128 errFd <<< 96)

/-- `get_pid_fd`, `lib/ev/Loop.fu` 842. -/
def getPidFd (w : BitVec 128) : Nat := (w &&& 0x7fffffff#128).toNat

/-- `get_fd`, `lib/ev/Loop.fu` 844-847. -/
def getFd (w : BitVec 128) (which : Nat) : Nat := ((w >>> ((1 + which) * 32)) &&& 0x7fffffff#128).toNat

/-- The word after `close_stream`, `lib/ev/Loop.fu` 851. -/
def clearFd (w : BitVec 128) (which : Nat) : BitVec 128 := w &&& ~~~(0xffffffff#128 <<< ((1 + which) * 32))

/-- `is_available`, `lib/ev/Loop.fu` 855-858. -/
def isAvailable (w : BitVec 128) (which : Nat) : Bool := (w &&& (1#128 <<< ((1 + which) * 32 + 31))) != 0#128

/-- `set_available`, `lib/ev/Loop.fu` 860-863. -/
def setAvailable (w : BitVec 128) (which : Nat) : BitVec 128 := w ||| (1#128 <<< ((1 + which) * 32 + 31))

/-- `clear_available`, `lib/ev/Loop.fu` 865-868. -/
def clearAvailable (w : BitVec 128) (which : Nat) : BitVec 128 := w &&& ~~~(1#128 <<< ((1 + which) * 32 + 31))

/-! ## The kernel and the loop -/

/-- What the program and the system can observe of a run. -/
inductive Obs where
  /-- The program opens a descriptor of its own. -/
  | userOpen (fd : Nat)
  /-- The program closes a descriptor of its own. -/
  | userClose (fd : Nat)
  /-- A system call made by the loop returns a new descriptor. -/
  | create (fd : Nat)
  /-- The loop calls `close(fd)`. -/
  | close (fd : Nat)
  /-- `spawn` returns the number of a new child, which has this pid descriptor and these pipes (0: none). -/
  | spawned (pid pidFd inFd outFd errFd : Nat)
  /-- Callback `child_event` with `writeable`, `out_readable`, `err_readable`. -/
  | event (pid : Nat) (w o e : Bool)
  /-- `out_read` (1) or `err_read` (2), called in an event of a child, reads this descriptor. -/
  | read (pid which fd : Nat)
  /-- Callback `child_closed`. -/
  | closed (pid : Nat) (err : Errno)
  /-- The loop calls `kill(pid, SIGKILL)`. -/
  | kill (pid : Nat)
  /-- The loop calls `kill(pid, SIGTERM)`. -/
  | term (pid : Nat)
deriving DecidableEq, Repr

/-- The kernel's tables and the variables of `Loop`, `lib/ev/Loop.fu` 19-25. -/
structure St where
  /-- Open descriptors of the process. -/
  opened : List Nat
  /-- Those the program opened itself. -/
  mine : List Nat
  /-- Its children that have not been waited for. -/
  kids : List Nat
  /-- The interest list of `loop_fd`. -/
  reg : Nat → Option Reg
  /-- `event_loop.must_close` -/
  mustClose : List Nat
  /-- `event_loop.must_sigkill` -/
  mustKill : List Nat
  /-- `event_loop.metas` -/
  pool : Pool.Pool Meta
  /-- The events of the current batch still to be handled. -/
  pending : List (Nat × Ep)
  /-- The loop has returned. -/
  ended : Bool
  /-- What has been observed so far, oldest first. -/
  trace : List Obs

/-- Why a run stops: a failed assertion of `close`, `unsubscribeAndClose`, `ksfd_pack`, `Pool`, or of line 1045. -/
inductive Fault where
  | closeLow | notListed | packRange | badSlot | notKillable
deriving DecidableEq, Repr

/-- A value, or the failed assertion. -/
inductive R (α : Type) where
  | ok (a : α)
  | fault (f : Fault)

/-- Sequencing. -/
def R.bind {α β : Type} : R α → (α → R β) → R β
  | .ok a, f => f a
  | .fault e, _ => .fault e

/-- Add to the trace. -/
def St.say (s : St) (o : Obs) : St := { s with trace := s.trace ++ [o] }

/-- Descriptors the kernel can give out: not in use, not the first three (which the program keeps open), not past `2^24`. -/
def freshFd (s : St) (n : Nat) : Prop := 2 < n ∧ n ≤ 0xffffff ∧ n ∉ s.opened

instance (s : St) (n : Nat) : Decidable (freshFd s n) := by unfold freshFd; infer_instance

/-- The kernel side of a call of the loop that returns a new descriptor. -/
def St.create (s : St) (fd : Nat) : St :=
  { s with opened := fd :: s.opened, trace := s.trace ++ [.create fd] }

/-- The same if there is a descriptor; 0 is none. -/
def St.createIf (s : St) (fd : Nat) : St := if fd ≠ 0 then s.create fd else s

/-- `close`, `lib/FD.fu` 5-23. -/
def close (s : St) (fd : Nat) : R St :=
  if 2 < fd then
    .ok { s with opened := s.opened.erase fd, mine := s.mine.erase fd,
                 reg := fun n => if n = fd then none else s.reg n,
                 trace := s.trace ++ [.close fd] }
  else .fault .closeLow

/-- `if (fd) event_loop.must_close.add(fd)`. -/
def St.mustAdd (s : St) (fd : Nat) : St :=
  if fd ≠ 0 then { s with mustClose := if fd ∈ s.mustClose then s.mustClose else fd :: s.mustClose } else s

/-- `unsubscribeAndClose`, `lib/ev/Loop.fu` 1161-1184. -/
def unsubscribeAndClose (s : St) (fd : Nat) : R St :=
  if fd ∈ s.mustClose then close { s with mustClose := s.mustClose.erase fd } fd else .fault .notListed

/-- One `epoll_ctl` of `wakeUp_forChild`, `lib/ev/Loop.fu` 1462-1491; the kernel refuses the descriptors in `refused`, and
the error is ignored by both callers. -/
def arm (s : St) (fd ud : Nat) (want inn : Bool) (refused : List Nat) : St :=
  if fd ≠ 0 ∧ want = true ∧ fd ∉ refused then
    { s with reg := fun n => if n = fd then some ⟨ud, inn, !inn, false, true, true⟩ else s.reg n }
  else s

/-- `wakeUp_forChild`, `lib/ev/Loop.fu` 1430-1491. -/
def wakeUp (s : St) (slot : Nat) (pidFd inFd outFd errFd : Nat) (wants : Nat) (refused : List Nat) : R St :=
  match pack .pidfd slot 0 0 with
  | none => .fault .packRange
  | some ud =>
    let s := arm s pidFd ud true true refused
    let s := arm s inFd (ud + 1) (wants.testBit 0) false refused
    let s := arm s outFd (ud + 2) (wants.testBit 1) true refused
    .ok (arm s errFd (ud + 3) (wants.testBit 2) true refused)

/-! ## Calls the program can make -/

/-- What `::spawn` gives for a child: `Child` of `lib/spawn.fu` 341-346. -/
structure Kid where
  pid : Nat
  inFd : Nat
  outFd : Nat
  errFd : Nat
deriving DecidableEq, Repr

/-- The pipes of a child. -/
def Kid.fds (k : Kid) : List Nat := [k.inFd, k.outFd, k.errFd].filter (· != 0)

/-- Answers of the kernel that are possible: a process number that is not taken and not past the largest one (`2^22`,
`proc(5)`), new descriptors. By property C88 these are all the descriptors a successful `::spawn` leaves open. -/
def Kid.possible (s : St) (k : Kid) : Prop :=
  0 < k.pid ∧ k.pid ≤ 2 ^ 22 ∧ k.pid ∉ s.kids ∧ k.fds.Nodup ∧ ∀ n ∈ k.fds, freshFd s n

instance (s : St) (k : Kid) : Decidable (k.possible s) := by unfold Kid.possible; infer_instance

/-- What a callback (or `loop_start`) can do, with the kernel's answers. -/
inductive Act where
  /-- opens a descriptor of its own -/
  | openOwn (fd : Nat)
  /-- closes a descriptor of its own (not the first three) -/
  | closeOwn (fd : Nat)
  /-- `spawn`: answer of `::spawn` (`none`: an error), of `pidfd_open` (0: an error), descriptors `epoll_ctl` refuses -/
  | spawn (kid : Option Kid) (pidFd : Nat) (refused : List Nat)

/-- `spawn` after `::spawn` succeeded, `lib/ev/Loop.fu` 205-272. -/
def spawned (dbg : Bool) (s : St) (k : Kid) (pidFd : Nat) (refused : List Nat) : R St :=
  let s := { ((s.createIf k.outFd).createIf k.errFd).createIf k.inFd with kids := k.pid :: s.kids }
  let pidFd := if freshFd s pidFd then pidFd else 0
  let s := s.createIf pidFd
  match Pool.alloc link dbg s.pool with
  | none => .fault .badSlot
  | some (p, slot) =>
    match Pool.put dbg p slot ⟨packWord pidFd k.inFd k.outFd k.errFd, BitVec.ofNat 32 k.pid, 0⟩ with
    | none => .fault .badSlot
    | some p =>
      (wakeUp { s with pool := p } slot.toNat pidFd k.inFd k.outFd k.errFd 7 refused).bind fun s =>
      let s := { s with mustKill := if k.pid ∈ s.mustKill then s.mustKill else k.pid :: s.mustKill }
      .ok ((((s.mustAdd pidFd).mustAdd k.inFd).mustAdd k.outFd).mustAdd k.errFd |>.say
        (.spawned k.pid pidFd k.inFd k.outFd k.errFd))

/-- `spawn`, `lib/ev/Loop.fu` 188-272. Impossible answers count as errors. -/
def spawn (dbg : Bool) (s : St) (k : Option Kid) (pidFd : Nat) (refused : List Nat) : R St :=
  match k with
  | none => .ok s
  | some k => if k.possible s then spawned dbg s k pidFd refused else .ok s

/-- One call of a callback. -/
def act (dbg : Bool) (s : St) : Act → R St
  | .openOwn fd =>
    if freshFd s fd then
      .ok { s with opened := fd :: s.opened, mine := fd :: s.mine, trace := s.trace ++ [.userOpen fd] }
    else .ok s
  | .closeOwn fd =>
    if fd ∈ s.mine ∧ 2 < fd then
      .ok { s with opened := s.opened.erase fd, mine := s.mine.erase fd, trace := s.trace ++ [.userClose fd] }
    else .ok s
  | .spawn k p r => spawn dbg s k p r

/-- The calls of a callback, in order. -/
def acts (dbg : Bool) (s : St) : List Act → R St
  | [] => .ok s
  | a :: as => (act dbg s a).bind fun s => acts dbg s as

/-! ## Events -/

/-- The local variables of the handling of an event: `meta.meta_u128`, `wants_streams`, `event_ERR`. -/
structure Loc where
  s : St
  w : BitVec 128
  wants : Nat
  err : Errno

/-- `close_stream`, `lib/ev/Loop.fu` 849-853. -/
def closeStream (l : Loc) (which : Nat) : R Loc :=
  let fd := getFd l.w which
  let l := { l with w := clearFd l.w which }
  if fd ≠ 0 then (unsubscribeAndClose l.s fd).bind fun s => .ok { l with s := s } else .ok l

/-- What the handler of an event of a child can do. -/
inductive Call where
  /-- `out_read` (false) or `err_read` (true): the error and number of bytes of `read_exhaustive` -/
  | read (err : Bool) (e : Errno) (bytes : Nat)
  | act (a : Act)

/-- `read`, `lib/ev/Loop.fu` 880-910. -/
def readStream (l : Loc) (pid which : Nat) (e : Errno) (bytes : Nat) : R Loc :=
  let fd := getFd l.w which
  if fd = 0 then .ok l
  else
    let l := { l with s := l.s.say (.read pid which fd), wants := l.wants ||| (1 <<< which) }
    if e ≠ 0 then .ok { l with err := if e ≠ EAGAIN ∧ l.err = 0 then e else l.err }
    else if bytes = 0 then closeStream l which
    else .ok l

/-- The handler of a child. -/
def calls (dbg : Bool) (l : Loc) (pid : Nat) : List Call → R Loc
  | [] => .ok l
  | .read err e n :: cs => (readStream l pid (if err then 2 else 1) e n).bind fun l => calls dbg l pid cs
  | .act a :: cs => (act dbg l.s a).bind fun s => calls dbg { l with s := s } pid cs

/-- What the kernel and the callbacks do while one event is handled. -/
structure Choice where
  /-- what `child_event` does -/
  calls : List Call
  /-- the error of `waitid` -/
  wait : Errno
  /-- what `child_closed` does -/
  acts : List Act
  /-- descriptors `epoll_ctl` refuses -/
  refused : List Nat

/-- All three streams: the loop of `lib/ev/Loop.fu` 979-981. -/
def closeStreams (l : Loc) : R Loc :=
  (closeStream l 0).bind fun l => (closeStream l 1).bind fun l => closeStream l 2

/-- An exit, `lib/ev/Loop.fu` 976-1050. `waitid` on a pid descriptor reported ready collects the child; an error it may still
give is passed on. -/
def exited (dbg : Bool) (s : St) (slot : Nat) (m : Meta) (err : Errno) (c : Choice) : R St :=
  (closeStreams ⟨s, m.word, 0, err⟩).bind fun l =>
  let pidFd := getPidFd l.w
  let pid := m.tail.toNat
  let s := { l.s with kids := l.s.kids.erase pid }
  (if pidFd ≠ 0 then unsubscribeAndClose s pidFd else .ok s).bind fun s =>
  if pid ∈ s.mustKill then
    match Pool.free link dbg s.pool slot with
    | none => .fault .badSlot
    | some p =>
      acts dbg ({ s with mustKill := s.mustKill.erase pid, pool := p }.say
        (.closed pid (if c.wait ≠ 0 then c.wait else err))) c.acts
  else .fault .notKillable

/-- `if (wants_streams & (1 << i)) clear_available(which: i)`, `lib/ev/Loop.fu` 1070-1072. -/
def forget (w : BitVec 128) (wants which : Nat) : BitVec 128 := if wants.testBit which then clearAvailable w which else w

/-- After the handler, `lib/ev/Loop.fu` 976-981, 1051-1086. After an error the record is not written back. -/
def served (dbg : Bool) (l : Loc) (slot : Nat) (pid : Nat) (c : Choice) : R St :=
  if l.err ≠ 0 then (closeStreams l).bind fun l => .ok (l.s.say (.kill pid))
  else
    let w := forget (forget (forget l.w l.wants 0) l.wants 1) l.wants 2
    match Pool.get dbg l.s.pool slot with
    | none => .fault .badSlot
    | some m =>
      match Pool.put dbg l.s.pool slot { m with word := w } with
      | none => .fault .badSlot
      | some p => wakeUp { l.s with pool := p } slot (getPidFd w) (getFd w 0) (getFd w 1) (getFd w 2) l.wants c.refused

/-- An event of one of the streams, `lib/ev/Loop.fu` 944-973. -/
def streamEvent (dbg : Bool) (s : St) (slot which : Nat) (m : Meta) (ev : Ep) (c : Choice) : R St :=
  let pid := m.tail.toNat
  let l : Loc := ⟨s, m.word, 0, evErr ev⟩
  (if ev.inn || ev.out then
    let w := setAvailable l.w which
    calls dbg { l with w := w, s := l.s.say (.event pid (isAvailable w 0) (isAvailable w 1) (isAvailable w 2)) } pid c.calls
   else .ok l).bind fun l =>
  (if ev.hup || ev.rdhup then closeStream l which else .ok l).bind fun l => served dbg l slot pid c

/-- The body of the loop for an event of a child, `lib/ev/Loop.fu` 827-1089. -/
def childEvent (dbg : Bool) (s : St) (ud : Nat) (ev : Ep) (c : Choice) : R St :=
  match Pool.get dbg s.pool (fdOf ud) with
  | none => .fault .badSlot
  | some m =>
    match kindOf ud with
    | some .pidfd => exited dbg s (fdOf ud) m (evErr ev) c
    | some .stdin => streamEvent dbg s (fdOf ud) 0 m ev c
    | some .stdout => streamEvent dbg s (fdOf ud) 1 m ev c
    | some .stderr => streamEvent dbg s (fdOf ud) 2 m ev c
    | _ => .ok s

/-- The next event of the batch. -/
def handle (dbg : Bool) (s : St) (c : Choice) : R St :=
  match s.pending with
  | [] => .ok s
  | (ud, ev) :: rest => childEvent dbg { s with pending := rest } ud ev c

/-- `event_loop.must_close.each`, `lib/ev/Loop.fu` 491-497, in some order. -/
def closeAll (s : St) : List Nat → R St
  | [] => .ok s
  | fd :: fds => (close s fd).bind fun s => closeAll s fds

/-- The `defer` of `Loop`, `lib/ev/Loop.fu` 489-512. -/
def finish (s : St) : R St :=
  (closeAll s s.mustClose).bind fun s =>
  .ok { s with ended := true, pending := [], mustClose := [], trace := s.trace ++ s.mustKill.map .term }

/-- `epoll_wait`, `lib/ev/Loop.fu` 527-566: the chosen entries are reported, one-shot entries (all of them) are disarmed. -/
def deliver (s : St) (evs : List (Nat × Ep)) : St :=
  { s with
    pending := evs.filterMap fun e => (s.reg e.1).map fun r => (r.ud, e.2)
    reg := fun n => (s.reg n).map fun r => if n ∈ evs.map (·.1) then { r with armed := false } else r }

/-- The process before it calls `Loop`: it has its own descriptors and no children. -/
def before (own : List Nat) : St :=
  { opened := own, mine := own, kids := [], reg := fun _ => none, mustClose := [], mustKill := [], pool := Pool.empty, pending := [],
    ended := false, trace := own.map .userOpen }

/-- `Loop` up to its first `epoll_wait`, `lib/ev/Loop.fu` 459-521. -/
def start (dbg : Bool) (own : List Nat) (loopFd : Nat) (as : List Act) : R St :=
  acts dbg (((before own).create loopFd).mustAdd loopFd) as

/-- The states a run of `Loop` goes through. -/
inductive Reach (dbg : Bool) : St → Prop where
  | start (own : List Nat) (fd : Nat) (as : List Act) (s : St) :
      own.Nodup → freshFd (before own) fd → start dbg own fd as = .ok s → Reach dbg s
  | wait (s : St) (evs : List (Nat × Ep)) : Reach dbg s → s.ended = false → s.pending = [] → (evs.map (·.1)).Nodup →
      (∀ e ∈ evs, ∃ r, s.reg e.1 = some r ∧ r.armed = true ∧ Ev.Allowed r e.2) → Reach dbg (deliver s evs)
  | handle (s : St) (c : Choice) (s' : St) : Reach dbg s → s.ended = false → handle dbg s c = .ok s' → Reach dbg s'
  | stop (s : St) (s' : St) : Reach dbg s → s.ended = false → finish s = .ok s' → Reach dbg s'

end Verif.Kids
