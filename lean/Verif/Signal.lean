import Verif.Basic
/-! # Signals blocked and let through again

lib/signal.fu:49-134 (`block`, `unblock`), as on Linux. -/
namespace Verif.Signal

/-- signals 1..64: which are blocked -/
abbrev Mask := Nat → Bool

/-- what the thread and the process have: the signal mask, the open descriptors -/
structure World where
  mask : Mask
  fds : List Nat

def SIGKILL : Nat := 9
def SIGSTOP : Nat := 19
def EINVAL : Nat := 22

/-- sigaddset(3): numbers that are no signals are not taken -/
def valid (s : Nat) : Bool := 1 ≤ s ∧ s ≤ 64

/-- a sigset_t of these signals -/
def setOf (l : List Nat) : Mask := fun s => valid s ∧ s ∈ l

/-- pthread_sigmask(3), SIG_BLOCK: KILL and STOP cannot be blocked, and nothing is said -/
def sigBlock (m set : Mask) : Mask := fun s => m s || (set s && s ≠ SIGKILL && s ≠ SIGSTOP)

/-- SIG_UNBLOCK -/
def sigUnblock (m set : Mask) : Mask := fun s => m s && !set s

/-- what the system answers: to pthread_sigmask (0 or an error), to signalfd -/
structure Sys where
  sigmask : Nat
  signalfd : Except Nat Nat

/-- lib/signal.fu:37-41 (`BlockedSigmask`) -/
structure Blocked where
  requested : BitVec 32
  actually : BitVec 32
  fd : Nat
deriving DecidableEq

/-- `1 << signo`, of an int; beyond 31 the language leaves it open and the processor takes the number modulo 32 -/
def bit (s : Nat) : BitVec 32 := 1#32 <<< (s % 32)

/-- lib/signal.fu:77-86: `old_set` and the signals -/
def actual (old : Mask) (l : List Nat) (a : BitVec 32 × Nat) : BitVec 32 × Nat :=
  l.foldl (fun a s =>
    if ¬ valid s then (a.1, EINVAL)
    else if old s then a
    else (a.1 ||| bit s, a.2)) a

/-- lib/signal.fu:49-108 (`block`): what it blocked, the error, the world -/
def block (y : Sys) (l : List Nat) (w : World) : Blocked × Nat × World :=
  let requested := l.foldl (fun r s => r ||| bit s) 0#32
  if y.sigmask ≠ 0 then (⟨0, 0, 0⟩, y.sigmask, w)
  else
    let a := actual w.mask l (0#32, 0)
    let mask := sigBlock w.mask (setOf l)
    match y.signalfd with
    | .error e => (⟨requested, a.1, 0⟩, e, { w with mask := mask })
    | .ok fd => (⟨requested, a.1, fd⟩, a.2, ⟨mask, fd :: w.fds⟩)

/-- close(2): `e` is what it answers; on Linux the descriptor is closed all the same -/
def close (e : Nat) (fd : Nat) (w : World) : Nat × World := (e, { w with fds := w.fds.erase fd })

/-- lib/signal.fu:110-134 (`unblock`): the two answers are to pthread_sigmask and to close -/
def unblock (ey ec : Nat) (b : Blocked) (w : World) : Nat × World :=
  let set : Mask := setOf ((List.range 32).filter fun i => (b.actually &&& bit i) ≠ 0#32)
  let w := if ey ≠ 0 then w else { w with mask := sigUnblock w.mask set }
  if b.fd ≠ 0 then close ec b.fd w else (ey, w)

end Verif.Signal
