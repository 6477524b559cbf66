import Verif.Spawn
/-!
# Model: capturing the output of a child - the last `spawn` of `lib/spawn.fu`

The child and the operating system are a schedule: a list of events, in any order. The child writes to its two streams
and closes them; the parent's next system call is answered.
-/
namespace Verif.Spawn

/-- A pipe from the child: what is in it, whether its writing end is closed, and all that was ever written to it. -/
structure Stream where
  buf : List UInt8 := []
  hup : Bool := false
  sent : List UInt8 := []
deriving DecidableEq, Repr

/-- Where the parent is in the loop, `lib/spawn.fu` 547-567: before `poll`; before the first `ReadPollFD`, with what `poll`
reported (`POLLIN`) about each stream; before the second, with the result of the first; after the loop. -/
inductive Pc where
  | poll
  | read0 (in0 in1 : Bool)
  | read1 (in1 hit0 : Bool)
  | done
deriving DecidableEq, Repr

/-- The parent and the two pipes; `false` is standard output, `true` standard error. -/
structure Cap where
  out : Stream := {}
  err : Stream := {}
  /-- What was appended to the buffers of the caller, in that order: `build.fu` passes one string as both. -/
  log : List (Bool × UInt8) := []
  pc : Pc := .poll
  /-- `err` of `spawn` -/
  fail : Errno := 0
  /-- how often `poll` has reported something -/
  polls : Nat := 0
deriving DecidableEq, Repr

/-- What can happen next. -/
inductive Event where
  /-- the child writes -/
  | write (which : Bool) (bytes : List UInt8)
  /-- the child (and whoever else has it) closes its end -/
  | hangup (which : Bool)
  /-- the parent's next system call returns: with an error, or, for `read`, with that many bytes (0: all there is) -/
  | call (fail : Errno) (n : Nat)
deriving DecidableEq, Repr

/-- `EINTR` and `EAGAIN`: `should_retry` of `lib/Errno.fu` 22-26. -/
def retry (e : Errno) : Bool := e = 4 || e = 11

/-- One of the two streams. -/
def Cap.stream (c : Cap) (which : Bool) : Stream := if which then c.err else c.out

/-- Change one of the two streams. -/
def Cap.setStream (c : Cap) (which : Bool) (s : Stream) : Cap := if which then { c with err := s } else { c with out := s }

/-- What the caller has got from a stream. -/
def Cap.got (c : Cap) (which : Bool) : List UInt8 := (c.log.filter (·.1 == which)).map (·.2)

/-- How many bytes a `read` of a stream that has some returns. -/
def readCount (len n : Nat) : Nat := if n = 0 then len else min n len

/-- `ReadPollFD`, `lib/spawn.fu` 491-537: nothing unless `POLLIN` was reported; then `read`. The result says whether there
were any bytes. -/
def readPoll (c : Cap) (which inn : Bool) (e : Errno) (n : Nat) : Cap × Bool :=
  if inn then
    if e ≠ 0 then ({ c with fail := if c.fail = 0 then e else c.fail }, false)
    else
      let s := c.stream which
      let k := readCount s.buf.length n
      ({ c.setStream which { s with buf := s.buf.drop k } with log := c.log ++ (s.buf.take k).map fun b => (which, b) }, k != 0)
  else (c, false)

/-- `poll`, `lib/spawn.fu` 547-559: it blocks unless there is something to report. -/
def pollStep (c : Cap) (e : Errno) : Cap :=
  if e ≠ 0 then
    if retry e then c else { c with fail := e, pc := .done }
  else if c.out.buf ≠ [] ∨ c.err.buf ≠ [] ∨ c.out.hup = true ∨ c.err.hup = true then
    { c with pc := .read0 (c.out.buf != []) (c.err.buf != []), polls := c.polls + 1 }
  else c

/-- The end of the body of the loop and the condition of the next round, `lib/spawn.fu` 547-567. -/
def nextRound (c : Cap) (hit : Bool) : Cap :=
  if hit = true ∧ c.fail = 0 then { c with pc := .poll } else { c with pc := .done }

/-- One event. -/
def step (c : Cap) : Event → Cap
  | .write which bytes =>
    let s := c.stream which
    if s.hup then c else c.setStream which { s with buf := s.buf ++ bytes, sent := s.sent ++ bytes }
  | .hangup which => c.setStream which { c.stream which with hup := true }
  | .call e n =>
    match c.pc with
    | .poll => pollStep c e
    | .read0 in0 in1 =>
      let r := readPoll c false in0 e n
      { r.1 with pc := .read1 in1 r.2 }
    | .read1 in1 hit0 =>
      let r := readPoll c true in1 e n
      nextRound r.1 (hit0 || r.2)
    | .done => c

/-- A schedule, from the start. -/
def play (es : List Event) : Cap := es.foldl step {}

end Verif.Spawn
