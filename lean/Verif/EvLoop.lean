/-!
# Model: the event loop - `lib/ev/Loop.fu`, Linux branches, sockets and file watches

The program's callbacks and the kernel are inputs: what a callback does is a list of calls (`Act`, `SockOp`), what the
kernel answers is part of each call. Any list of inputs is a possible execution.

Simplifications common to the file: `must_close` (a `BitSet`, whose set semantics is property C15) is a list without
repetitions; a loop without child handlers (`WITH_CHILDREN` false: then no child can be started, because `spawn` needs the
implicit `Loop_with_child_handlers`); all descriptors are close-on-exec and never duplicated, so `close` takes them off
the interest list; debug printing is left out.
-/
namespace Verif.Ev

/-- An error number; 0 is none. -/
abbrev Errno := Nat

/-- `EAGAIN` and `EWOULDBLOCK`, one number on Linux: `should_retry_later` of `lib/Errno.fu` 16-20. -/
def EAGAIN : Errno := 11
/-- The error of `EPOLLERR`, `lib/ev/Loop.fu` 602. -/
def EPIPE : Errno := 32
/-- No more descriptors. -/
def EMFILE : Errno := 24

/-! ## What fits in the 64 bits epoll keeps for us -/

/-- `enum Kind`, `lib/ev/Loop.fu` 27-48. -/
inductive Kind where
  | server | socket | signals | watch | pidfd | stdin | stdout | stderr
deriving DecidableEq, Repr

/-- The number of a `Kind`. -/
def Kind.num : Kind → Nat
  | .server => 0 | .socket => 1 | .signals => 2 | .watch => 3 | .pidfd => 4 | .stdin => 5 | .stdout => 6 | .stderr => 7

/-- `Kind(n)`: the kind with a number; `none` for numbers no `Kind` has. -/
def Kind.ofNum : Nat → Option Kind
  | 0 => some .server | 1 => some .socket | 2 => some .signals | 3 => some .watch
  | 4 => some .pidfd | 5 => some .stdin | 6 => some .stdout | 7 => some .stderr | _ => none

/-- `flags SocketState`, `lib/ev/Loop.fu` 60-78, one field for each bit, lowest first. -/
structure SS where
  readable : Bool := false
  writeable : Bool := false
  readEOF : Bool := false
  writeEOF : Bool := false
  wantsRead : Bool := false
  wantsWrite : Bool := false
  willRead : Bool := false
  willWrite : Bool := false
deriving DecidableEq, Repr

/-- The byte of a `SocketState`. -/
def SS.byte (s : SS) : Nat :=
  s.readable.toNat + 2 * s.writeable.toNat + 4 * s.readEOF.toNat + 8 * s.writeEOF.toNat
    + 16 * s.wantsRead.toNat + 32 * s.wantsWrite.toNat + 64 * s.willRead.toNat + 128 * s.willWrite.toNat

/-- The `SocketState` of a byte. -/
def SS.ofByte (n : Nat) : SS :=
  ⟨n.testBit 0, n.testBit 1, n.testBit 2, n.testBit 3, n.testBit 4, n.testBit 5, n.testBit 6, n.testBit 7⟩

/-- `|=` on `SocketState`. -/
def SS.or (a b : SS) : SS :=
  ⟨a.readable || b.readable, a.writeable || b.writeable, a.readEOF || b.readEOF, a.writeEOF || b.writeEOF,
   a.wantsRead || b.wantsRead, a.wantsWrite || b.wantsWrite, a.willRead || b.willRead, a.willWrite || b.willWrite⟩

/-- `WantsWriteBeforeRead` of `flags ServerOptions`, `lib/ev/Loop.fu` 82-84, as a byte. -/
def optsByte (wantWrite : Bool) : Nat := wantWrite.toNat

/-- `ksfd_pack`, `lib/ev/Loop.fu` 94-106; `u64` numbers are naturals (all shifts stay below `2^64`). `none`: the
assertion fails. -/
def pack (kind : Kind) (fd : Nat) (state : Nat) (user32 : BitVec 32) : Option Nat :=
  if fd ≤ 0xffffff then
    some (kind.num ||| (fd <<< 8) ||| ((state &&& 0xf) <<< 4) ||| (user32.toNat <<< 32))
  else none

/-- `ksfd_unpack`, `lib/ev/Loop.fu` 108-122: the kind. -/
def kindOf (ud : Nat) : Option Kind := Kind.ofNum (ud &&& 0xf)
/-- `ksfd_unpack`: the descriptor. -/
def fdOf (ud : Nat) : Nat := (ud >>> 8) &&& 0xffffff
/-- `ksfd_unpack`: the state bits. -/
def stateOf (ud : Nat) : Nat := (ud >>> 4) &&& 0xf
/-- `ksfd_unpack`: the program's tag. -/
def tagOf (ud : Nat) : BitVec 32 := BitVec.ofNat 32 (ud >>> 32)

/-- `user_data & ~(STATE_MASK << STATE_OFFSET) | new_state.u64 << STATE_OFFSET`, `lib/ev/Loop.fu` 787-788. Taking bits
away is subtracting those that are there. -/
def withState (ud : Nat) (state : Nat) : Nat := (ud - (ud &&& 0xf0)) ||| (state <<< 4)

/-! ## The kernel, as far as the loop sees it -/

/-- What `epoll_wait` says about a descriptor: `EPOLLIN`, `EPOLLOUT`, `EPOLLRDHUP`, `EPOLLHUP`, `EPOLLERR`. -/
structure Ep where
  inn : Bool := false
  out : Bool := false
  rdhup : Bool := false
  hup : Bool := false
  err : Bool := false
deriving DecidableEq, Repr

/-- An entry of the interest list: what `epoll_ctl` was given; `armed` is false after a one-shot delivery. -/
structure Reg where
  ud : Nat
  inn : Bool
  out : Bool
  rdhup : Bool
  oneshot : Bool
  armed : Bool := true
deriving DecidableEq, Repr

/-- What the program and the system can observe of a run. -/
inductive Obs where
  /-- The program opens a descriptor of its own. -/
  | userOpen (fd : Nat)
  /-- The program closes a descriptor of its own. -/
  | userClose (fd : Nat)
  /-- A system call made by the loop returns a new descriptor. -/
  | create (fd : Nat)
  /-- The loop calls `close(fd)`. -/
  | close (fd : Nat)
  /-- Callback `socket_accepted`, and the tag it leaves in `socket_u32`. -/
  | accepted (fd : Nat) (tag : BitVec 32)
  /-- Callback `socket_event` with its `readable` and `writeable`. -/
  | event (fd : Nat) (tag : BitVec 32) (readable writeable : Bool)
  /-- Callback `socket_closed`. -/
  | closed (fd : Nat) (tag : BitVec 32) (err : Errno)
  /-- Callback `loop_error`. -/
  | failed (fd : Nat) (err : Errno)
  /-- Callback `watch_event`. -/
  | watched (fd : Nat)
deriving DecidableEq, Repr

/-- The kernel's tables and the variables of `Loop`, `lib/ev/Loop.fu` 19-25, 439-1140. -/
structure St where
  /-- Open descriptors of the process. -/
  opened : List Nat
  /-- Those the program opened itself. -/
  mine : List Nat
  /-- The interest list of `loop_fd`. -/
  reg : Nat → Option Reg
  /-- `event_loop.must_close` -/
  mustClose : List Nat
  /-- `blocked_sigmask.signal_fd`, 0 when there is none. -/
  signalFd : Nat
  /-- `err` of `Loop`. -/
  err : Errno
  /-- The events of the current batch still to be handled. -/
  pending : List (Nat × Ep)
  /-- The loop has returned. -/
  ended : Bool
  /-- What has been observed so far, oldest first. -/
  trace : List Obs

/-- Why a run stops: the assertion `fd > 2` of `close`, `assert(exists)` of `unsubscribeAndClose`, the assertion of
`ksfd_pack`. -/
inductive Fault where
  | closeLow | notListed | packRange
deriving DecidableEq, Repr

/-- A value, or the failed assertion. -/
inductive R (α : Type) where
  | ok (a : α)
  | fault (f : Fault)

/-- Sequencing. -/
def R.bind {α β : Type} : R α → (α → R β) → R β
  | .ok a, f => f a
  | .fault e, _ => .fault e

/-- Add to the trace. -/
def St.say (s : St) (o : Obs) : St := { s with trace := s.trace ++ [o] }

/-- The kernel gives out a descriptor, or fails. A descriptor that is in use, one of the first three (which the program
keeps open) or one past `2^24` is not a possible answer and counts as "no more descriptors". -/
def newFd (s : St) : Except Errno Nat → Except Errno Nat
  | .error e => .error (if e = 0 then EMFILE else e)
  | .ok n => if 2 < n ∧ n ≤ 0xffffff ∧ n ∉ s.opened then .ok n else .error EMFILE

/-- The kernel side of a call of the loop that returns a new descriptor. -/
def St.create (s : St) (fd : Nat) : St :=
  { s with opened := fd :: s.opened, trace := s.trace ++ [.create fd] }

/-- `close`, `lib/FD.fu` 5-23; descriptors are integers because `-1` stands for none. -/
def close (s : St) (fd : Int) : R St :=
  if 2 < fd then
    .ok { s with opened := s.opened.erase fd.toNat, mine := s.mine.erase fd.toNat,
                 reg := fun n => if n = fd.toNat then none else s.reg n,
                 trace := s.trace ++ [.close fd.toNat] }
  else .fault .closeLow

/-- `epoll_ctl` with `EPOLL_CTL_ADD` or `EPOLL_CTL_MOD`: the entry is replaced unless the call fails. -/
def ctl (s : St) (fd : Nat) (r : Reg) (e : Errno) : St :=
  if e = 0 then { s with reg := fun n => if n = fd then some r else s.reg n } else s

/-- `event_loop.must_close.add`. -/
def St.mustAdd (s : St) (fd : Nat) : St :=
  { s with mustClose := if fd ∈ s.mustClose then s.mustClose else fd :: s.mustClose }

/-! ## Calls the program can make -/

/-- What a callback (or `loop_start`) can do, with the kernel's answers. -/
inductive Act where
  /-- opens a descriptor of its own -/
  | openOwn (fd : Nat)
  /-- closes a descriptor of its own (not the first three) -/
  | closeOwn (fd : Nat)
  /-- `ipv4_listen`: answers of `socket`, of `bind`/`listen`, of `epoll_ctl` -/
  | listen (wantWriteBeforeRead : Bool) (sock : Except Errno Nat) (bind : Errno) (ctl : Errno)
  /-- `watch_files`: answers of `inotify_init1`, of the `inotify_add_watch` calls, of `epoll_ctl` -/
  | watch (init : Except Errno Nat) (add : Errno) (ctl : Errno)

/-- `ipv4_listen` after `createSocketAndListen_doesntCloseOnError`, `lib/ev/Loop.fu` 126-153; `wakeUp_forAccept`
(1395-1428) adds `EPOLLEXCLUSIVE | EPOLLIN`. The assertion of `ksfd_pack` is evaluated with the arguments of
`wakeUp_forAccept`, so only after a successful `bind`. -/
def listenWith (s : St) (want : Bool) (fd : Nat) (bind ctlE : Errno) : R St :=
  if bind ≠ 0 then close s fd
  else
    match pack .server fd (optsByte want) 0 with
    | none => .fault .packRange
    | some ud =>
      let s := ctl s fd ⟨ud, true, false, false, false, true⟩ ctlE
      if ctlE ≠ 0 then close s fd else .ok (s.mustAdd fd)

/-- `ipv4_listen`, `lib/ev/Loop.fu` 126-153: after a failed `socket` the descriptor is `-1`, which counts as true. -/
def listen (s : St) (want : Bool) (sock : Except Errno Nat) (bind ctlE : Errno) : R St :=
  match newFd s sock with
  | .error _ => close s (-1)
  | .ok fd => listenWith (s.create fd) want fd bind ctlE

/-- `watch_files`, `lib/ev/Loop.fu` 275-434, the Linux branch. -/
def watch (s : St) (init : Except Errno Nat) (addE ctlE : Errno) : R St :=
  match newFd s init with
  | .error _ => .ok s
  | .ok fd =>
    let s := s.create fd
    match pack .watch fd 0 0 with
    | none => .fault .packRange
    | some ud =>
      if addE ≠ 0 then close s fd
      else
        let s := ctl s fd ⟨ud, true, false, false, false, true⟩ ctlE
        if ctlE ≠ 0 then close s fd else .ok (s.mustAdd fd)

/-- One call of a callback. -/
def act (s : St) : Act → R St
  | .openOwn fd =>
    match newFd s (.ok fd) with
    | .ok fd => .ok { s with opened := fd :: s.opened, mine := fd :: s.mine, trace := s.trace ++ [.userOpen fd] }
    | .error _ => .ok s
  | .closeOwn fd =>
    if fd ∈ s.mine ∧ 2 < fd then
      .ok { s with opened := s.opened.erase fd, mine := s.mine.erase fd, trace := s.trace ++ [.userClose fd] }
    else .ok s
  | .listen w sock b c => listen s w sock b c
  | .watch i a c => watch s i a c

/-- The calls of a callback, in order. -/
def acts (s : St) : List Act → R St
  | [] => .ok s
  | a :: as => (act s a).bind fun s => acts s as

/-! ## Events -/

/-- What a `socket_event` callback can do with its connection, with the kernel's answers. -/
inductive SockOp where
  /-- `read(buffer)`: the error and number of bytes of `read_exhaustive` -/
  | read (err : Errno) (bytes : Nat)
  /-- `write(data)`: how much there is, error and number of bytes of `write` -/
  | write (len : Nat) (err : Errno) (written : Nat)
  | close
  | willReadLater
  | willWriteLater
deriving DecidableEq, Repr

/-- The local functions `read`, `write` and the closures of `lib/ev/Loop.fu` 703-762; the pair is `state` and
`event_ERR`. What `write` calls back is not modelled here. -/
def sockOp : SS × Errno → SockOp → SS × Errno
  | (st, e), .read err bytes =>
    let st := { st with wantsRead := true }
    if err ≠ 0 then (st, if err ≠ EAGAIN ∧ e = 0 then err else e)
    else if bytes = 0 then ({ st with readEOF := true }, e)
    else (st, e)
  | (st, e), .write len err written =>
    let err := if err = EAGAIN then 0 else err
    let e := if err ≠ 0 ∧ e = 0 then err else e
    if e = 0 ∧ written < len then ({ st with wantsWrite := true }, e) else (st, e)
  | (st, e), .close => ({ st with readEOF := true, writeEOF := true }, e)
  | (st, e), .willReadLater => ({ st with willRead := true }, e)
  | (st, e), .willWriteLater => ({ st with willWrite := true }, e)

/-- `state` from what epoll reports, `lib/ev/Loop.fu` 598-601. -/
def evState (ev : Ep) : SS :=
  { readable := ev.inn, writeable := ev.out, readEOF := ev.hup || ev.rdhup, writeEOF := ev.hup }

/-- `event_ERR` from what epoll reports, `lib/ev/Loop.fu` 602. -/
def evErr (ev : Ep) : Errno := if ev.err then EPIPE else 0

/-- `mustClose`, `lib/ev/Loop.fu` 765-768. -/
def mustClose (st : SS) : Bool :=
  if st.readEOF then st.writeEOF || !(st.wantsWrite || st.willWrite)
  else st.readable && !(st.wantsRead || st.willRead)

/-- `wakeUp_forRecv`, `lib/ev/Loop.fu` 772-774. -/
def wakeRecv (st : SS) : Bool := !st.readEOF && (st.wantsRead || !st.readable)

/-- `wakeUp_forWrite`, `lib/ev/Loop.fu` 776-778. -/
def wakeWrite (st : SS) : Bool := !st.writeEOF && (st.wantsWrite || !st.writeable)

/-- `new_state`, `lib/ev/Loop.fu` 780-785. -/
def newState (st : SS) : SS :=
  { readable := !wakeRecv st && st.readable, writeable := !wakeWrite st && st.writeable,
    readEOF := st.readEOF, writeEOF := st.writeEOF }

/-- `unsubscribeAndClose`, `lib/ev/Loop.fu` 1161-1184. -/
def unsubscribeAndClose (s : St) (fd : Nat) : R St :=
  if fd ∈ s.mustClose then close { s with mustClose := s.mustClose.erase fd } fd else .fault .notListed

/-- What the kernel and the callbacks do while one event is handled. -/
structure Choice where
  /-- answer of `accept4` -/
  accept : Except Errno Nat
  /-- the tag `socket_accepted` leaves -/
  tag : BitVec 32
  /-- what `socket_event` does with its connection -/
  ops : List SockOp
  /-- what else the first callback does -/
  acts : List Act
  /-- answer of `epoll_ctl` -/
  ctl : Errno
  /-- what the last callback (`socket_closed`) does -/
  acts' : List Act

/-- The entry `wakeUp_forRecvOrWrite` makes, `lib/ev/Loop.fu` 1317-1393. -/
def sockReg (ud : Nat) (recv write : Bool) : Reg := ⟨ud, recv, write, true, true, true⟩

/-- `kind == Kind.ipv4_server` after a successful `accept4`, `lib/ev/Loop.fu` 655-691: `options` of the server is
in `ud`. Note `event_ERR = err`. -/
def accepted (s : St) (ud fd : Nat) (c : Choice) : R St :=
  let initial : SS := { writeable := !(stateOf ud).testBit 0 }
  (acts (s.say (.accepted fd c.tag)) c.acts).bind fun s =>
  match pack .socket fd initial.byte c.tag with
  | none => .fault .packRange
  | some ud' =>
    let s := ctl s fd (sockReg ud' true (!initial.writeable)) c.ctl
    if c.ctl ≠ 0 then
      (close s fd).bind fun s => acts (s.say (.closed fd c.tag s.err)) c.acts'
    else .ok (s.mustAdd fd)

/-- `kind == Kind.ipv4_server`, `lib/ev/Loop.fu` 629-694. -/
def serverEvent (s : St) (ud : Nat) (ev : Ep) (c : Choice) : R St :=
  if evErr ev ≠ 0 then acts (s.say (.failed (fdOf ud) (evErr ev))) c.acts
  else
    match newFd s c.accept with
    | .error e => acts (s.say (.failed (fdOf ud) e)) c.acts
    | .ok fd => accepted (s.create fd) ud fd c

/-- The handler of a connection and what becomes of `state` and `event_ERR`, `lib/ev/Loop.fu` 747-763. -/
def serve (st : SS) (e : Errno) (ops : List SockOp) : SS × Errno :=
  if st.readable || st.writeable then ops.foldl sockOp (st, e) else (st, e)

/-- Closing a connection, `lib/ev/Loop.fu` 799-804, 817-823. -/
def closeSocket (s : St) (ud : Nat) (e : Errno) (as : List Act) : R St :=
  (unsubscribeAndClose s (fdOf ud)).bind fun s => acts (s.say (.closed (fdOf ud) (tagOf ud) e)) as

/-- `kind == Kind.ipv4_server_socket` after the handler, `lib/ev/Loop.fu` 765-809. -/
def served (s : St) (ud : Nat) (st : SS) (e : Errno) (c : Choice) : R St :=
  if mustClose st = true ∨ e ≠ 0 then closeSocket s ud e c.acts'
  else
    let s := ctl s (fdOf ud) (sockReg (withState ud (newState st).byte) (wakeRecv st) (wakeWrite st)) c.ctl
    if c.ctl ≠ 0 then closeSocket s ud c.ctl c.acts' else .ok s

/-- `kind == Kind.ipv4_server_socket`, `lib/ev/Loop.fu` 699-809. The handler's calls on its connection come before its
other calls; the two do not affect each other. -/
def socketEvent (s : St) (ud : Nat) (ev : Ep) (c : Choice) : R St :=
  let st := (evState ev).or (SS.ofByte (stateOf ud))
  let r := serve st (evErr ev) c.ops
  if st.readable || st.writeable then
    (acts (s.say (.event (fdOf ud) (tagOf ud) st.readable st.writeable)) c.acts).bind fun s =>
    served s ud r.1 r.2 c
  else served s ud r.1 r.2 c

/-- `event_loop.must_close.each`, `lib/ev/Loop.fu` 491-497, in some order (`BitSet.each` goes upwards). -/
def closeAll (s : St) : List Nat → R St
  | [] => .ok s
  | fd :: fds => (close s fd).bind fun s => closeAll s fds

/-- The `defer` of `Loop`, `lib/ev/Loop.fu` 489-516, and `unblock` of `lib/signal.fu` 109-134. The errors of `close` are
left out. -/
def finish (s : St) : R St :=
  (closeAll s s.mustClose).bind fun s =>
  let s := { s with ended := true, mustClose := [] }
  if s.signalFd ≠ 0 then close s s.signalFd else .ok s

/-- The body of the loop over events, `lib/ev/Loop.fu` 569-1137, for the first pending event. -/
def handle (s : St) (c : Choice) : R St :=
  match s.pending with
  | [] => .ok s
  | (ud, ev) :: rest =>
    let s := { s with pending := rest }
    match kindOf ud with
    | some .server => serverEvent s ud ev c
    | some .socket => socketEvent s ud ev c
    | some .watch => acts (s.say (.watched (fdOf ud))) c.acts
    | some .signals => finish s
    | _ => .ok s

/-- What may be reported for an entry: something asked for, or an error or hang-up, which is always reported
(`epoll_ctl(2)`). -/
def Allowed (r : Reg) (ev : Ep) : Prop :=
  (ev.inn = true → r.inn = true) ∧ (ev.out = true → r.out = true) ∧ (ev.rdhup = true → r.rdhup = true) ∧ ev ≠ {}

/-- `epoll_wait`, `lib/ev/Loop.fu` 527-566: the chosen entries are reported, one-shot entries are disarmed. -/
def deliver (s : St) (evs : List (Nat × Ep)) : St :=
  { s with
    pending := evs.filterMap fun e => (s.reg e.1).map fun r => (r.ud, e.2)
    reg := fun n => (s.reg n).map fun r =>
      if r.oneshot = true ∧ n ∈ evs.map (·.1) then { r with armed := false } else r }

/-- `Loop` up to its first `epoll_wait`, `lib/ev/Loop.fu` 459-521: `epoll_create1` gives `loopFd`, `signal::block` gives
`sig`, then `loop_start` and `sig_listen` (155-188). -/
def start (s : St) (loopFd : Nat) (sig : Except Errno Nat) (blockErr : Errno) (as : List Act) (ctlE : Errno) : R St :=
  let s := s.create loopFd
  let s := { s with err := blockErr }
  let (s, sg) := match newFd s sig with
    | .ok fd => (s.create fd, fd)
    | .error _ => (s, 0)
  let s := { s.mustAdd loopFd with signalFd := sg }
  (acts s as).bind fun s =>
  if sg ≠ 0 then
    match pack .signals sg 0 0 with
    | none => .fault .packRange
    | some ud => .ok (ctl s sg ⟨ud, true, false, false, false, true⟩ ctlE)
  else .ok s

/-- The process before it calls `Loop`: it has its own descriptors, among them the first three. -/
def before (own : List Nat) : St :=
  { opened := own, mine := own, reg := fun _ => none, mustClose := [], signalFd := 0, err := 0, pending := [],
    ended := false, trace := own.map .userOpen }

/-- The states a run of `Loop` goes through. -/
inductive Reach : St → Prop where
  | start (own : List Nat) (fd : Nat) (sig : Except Errno Nat) (e : Errno) (as : List Act) (ce : Errno) (s : St) :
      own.Nodup → newFd (before own) (.ok fd) = .ok fd → start (before own) fd sig e as ce = .ok s → Reach s
  | wait (s : St) (evs : List (Nat × Ep)) : Reach s → s.ended = false → s.pending = [] → (evs.map (·.1)).Nodup →
      (∀ e ∈ evs, ∃ r, s.reg e.1 = some r ∧ r.armed = true ∧ Allowed r e.2) → Reach (deliver s evs)
  | handle (s : St) (c : Choice) (s' : St) : Reach s → s.ended = false → handle s c = .ok s' → Reach s'
  | error (s : St) (s' : St) : Reach s → s.ended = false → s.pending = [] → finish s = .ok s' → Reach s'

end Verif.Ev
