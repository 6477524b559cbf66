import Mathlib.Data.Finset.Card
import Mathlib.Data.Finset.Insert
/-!
# Model of the reference counts (`include/fu/mem/arc.h`) under concurrency

One shared buffer, any number of threads and handles (vectors that point to it).  The count `m_arc` is a C++ atomic; its
modification order is kept, so a relaxed load may read a stale value (any value not older than what the thread already
knows of), and every message carries the memory accesses that a thread synchronising with it learns of.  The counter is
an unbounded integer (the code's `int` holds it as long as there are fewer than 2^31 handles).

A handle is used by one thread at a time; handing it to another thread synchronises the two threads (that is the job of
whatever passes the vector on).
-/
namespace Verif.Arc

abbrev Handle := Nat
abbrev Thread := Nat
abbrev Access := Nat

/-- One value of `m_arc` in its modification order, and what an acquire load that reads it learns. -/
structure Msg where
  val : Int
  view : Finset Access
  deriving DecidableEq

structure State where
  /-- modification order of `m_arc`, newest first; the newest is the current value -/
  mo : List Msg
  /-- handles that point to the buffer, and the thread using each -/
  live : Finset Handle
  own : Handle → Thread
  /-- handles whose owner has seen `unique()` return true and marked itself unique -/
  excl : Finset Handle
  /-- the handle, thread and reason (true: a uniqueness test, false: the count) of a started deallocation -/
  freeing : Option (Handle × Thread × Bool)
  freed : Nat
  /-- how many of the messages a thread is known to have seen, counted from the oldest -/
  seen : Thread → Nat
  /-- all accesses to the buffer so far; those ordered before a thread's next action -/
  done : Finset Access
  know : Thread → Finset Access

def upd {β : Type} (f : Nat → β) (t : Nat) (b : β) : Nat → β := fun i => if i = t then b else f i

/-- fu_ARC_ALLOC (include/fu/mem/arc.cpp:170-205): the count starts at 0 with one handle. -/
def init (h : Handle) (t : Thread) : State :=
  { mo := [⟨0, ∅⟩], live := {h}, own := fun _ => t, excl := ∅, freeing := none, freed := 0,
    seen := fun _ => 0, done := ∅, know := fun _ => ∅ }

/-- One step of some thread.  `acq` is the ordering of the load in `unique()`: `false` (relaxed) in the code. -/
inductive Step (acq : Bool) : State → State → Prop where
  /-- include/fu/mem/arc.h:44-47 `incr`, from include/fu/vec.h:334-338: copying a handle. `fetch_add` reads the newest
  value; relaxed, so it passes the newest view on and learns nothing. -/
  | copy (s : State) (h h' : Handle) (m : Msg) (r : List Msg) (hm : s.mo = m :: r) (hl : h ∈ s.live) (hf : h' ∉ s.live) :
      Step acq s { s with
        mo := ⟨m.val + 1, m.view⟩ :: s.mo
        live := insert h' s.live
        own := upd s.own h' (s.own h)
        excl := s.excl.erase h
        seen := upd s.seen (s.own h) s.mo.length }
  /-- handing the vector to another thread -/
  | move (s : State) (h : Handle) (t : Thread) (hl : h ∈ s.live) :
      Step acq s { s with
        own := upd s.own h t
        seen := upd s.seen t (max (s.seen t) (s.seen (s.own h)))
        know := upd s.know t (s.know t ∪ s.know (s.own h)) }
  /-- reading (or, when marked unique, writing) the buffer through a handle -/
  | access (s : State) (h : Handle) (a : Access) (hl : h ∈ s.live) (ha : a ∉ s.done) :
      Step acq s { s with
        done := insert a s.done
        know := upd s.know (s.own h) (insert a (s.know (s.own h))) }
  /-- include/fu/mem/arc.h:49-55 `decr`, from include/fu/vec.h:262-275 `SHARED__Dealloc`: `fetch_add(-1, acq_rel)`; the
  buffer is freed by the caller when the previous value was 0. -/
  | drop (s : State) (h : Handle) (m : Msg) (r : List Msg) (hm : s.mo = m :: r) (hl : h ∈ s.live) (hx : h ∉ s.excl) :
      Step acq s { s with
        mo := ⟨m.val - 1, m.view ∪ s.know (s.own h)⟩ :: s.mo
        live := s.live.erase h
        know := upd s.know (s.own h) (s.know (s.own h) ∪ m.view)
        seen := upd s.seen (s.own h) s.mo.length
        freeing := if m.val = 0 then some (h, s.own h, false) else s.freeing }
  /-- include/fu/mem/arc.h:57-60 `unique`, from include/fu/vec.h:377-400: a load that may read any message the thread has
  not seen a successor of.  When it reads 0 the vector is marked unique. -/
  | test (s : State) (h : Handle) (new : List Msg) (m : Msg) (old : List Msg) (hm : s.mo = new ++ m :: old)
      (hl : h ∈ s.live) (hs : s.seen (s.own h) ≤ old.length) :
      Step acq s { s with
        seen := upd s.seen (s.own h) old.length
        know := if acq then upd s.know (s.own h) (s.know (s.own h) ∪ m.view) else s.know
        excl := if m.val = 0 then insert h s.excl else s.excl }
  /-- include/fu/vec.h:300-310 and 934-937: a vector marked unique frees its buffer without touching the count. -/
  | dropUnique (s : State) (h : Handle) (hl : h ∈ s.live) (hx : h ∈ s.excl) :
      Step acq s { s with
        live := s.live.erase h
        excl := s.excl.erase h
        freeing := some (h, s.own h, true) }
  /-- fu_ARC_DEALLOC (include/fu/mem/arc.cpp:152-168) -/
  | free (s : State) (h : Handle) (t : Thread) (b : Bool) (hf : s.freeing = some (h, t, b)) :
      Step acq s { s with freeing := none, freed := s.freed + 1 }

/-- Every interleaving. -/
inductive Reachable (acq : Bool) : State → Prop where
  | init (h : Handle) (t : Thread) : Reachable acq (init h t)
  | step {s s' : State} : Reachable acq s → Step acq s s' → Reachable acq s'

end Verif.Arc
