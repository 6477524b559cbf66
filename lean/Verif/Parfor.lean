import Mathlib.Algebra.BigOperators.Fin
import Mathlib.Data.Fintype.BigOperators
/-!
# Model of the parallel loops (`include/par/parfor.cpp`, `include/par/parfor.hpp`)

Part 1 is the arithmetic of the batches.  Part 2 is a transition system: any number of user threads and worker threads,
each with a call stack, one shared LIFO stack of tasks, a counter of pending batches per loop, a fixed array of
mutex/condition-variable pairs that loops share (`slot` maps a loop to its pair, an arbitrary function here; in the code
the address of the counter modulo 99).  Every atomic operation, lock, unlock, wait and notify is one step, and steps of
different threads interleave in every order (sequential consistency; the lock-free stack's push and pop are atomic here,
see `Verif.Treiber` for those).
-/
namespace Verif.Parfor

/-! ## Part 1: batches -/

/-- include/par/parfor.cpp:477-485 -/
def maxBatches (workers : Nat) : Nat :=
  let m := workers + 1
  if m > 64 ∨ m = 1 then m else 64

/-- include/par/parfor.cpp:490-496 -/
def batches (workers size perBatch : Nat) : Nat :=
  let b := size / perBatch
  let b := if b < maxBatches workers then b else maxBatches workers
  if b > 1 then b else 1

/-- One `parfor_Task`'s index range. -/
structure Range where
  start : Nat
  stop : Nat
  deriving DecidableEq, Repr

/-- include/par/parfor.cpp:498-533: the ranges of all tasks, the last one's end fixed up. -/
def ranges (workers size perBatch : Nat) : List Range :=
  let b := batches workers size perBatch
  let per := size / b
  (List.range b).map fun i => ⟨i * per, if i = b - 1 then size else (i + 1) * per⟩

/-- lib/par.fu:39: `min > 1 ? min : 1` is what the loop passes as the batch size. -/
def perBatchOf (min : Int) : Nat := if min > 1 then min.toNat else 1

/-- WorkerSet_Create's default (include/par/parfor.cpp:217-224): number of worker threads from the number of cores. -/
def defaultWorkers (cores : Nat) : Nat :=
  if cores ≥ 64 then cores - 4
  else if cores ≥ 32 then cores - 3
  else if cores ≥ 16 then cores - 2
  else if cores ≥ 8 then cores - 1
  else if cores ≥ 1 then cores
  else 1

/-- The loop over the characters of the environment variable (include/par/parfor.cpp:229-250).  `len` counts the
characters looked at before this one; the list stands for the string before its terminating NUL.  Returns the number and
whether the error message was printed. -/
def envWorkers : List Char → Nat → Nat → Nat × Bool
  | [], _, w => (w, false)
  | c :: cs, len, w =>
    if len + 1 > 4 ∨ c < '0' ∨ c > '9' then (0, true)
    else envWorkers cs (len + 1) (w * 10 + (c.toNat - '0'.toNat))

/-! ## Part 2: execution -/

/-- What a loop body does: nothing more, some step of its own, or a nested parallel loop of `m + 1` batches. -/
inductive Body where
  | ret
  | work (next : Body)
  | par (m : Nat) (f : Nat → Body) (next : Body)

/-- A `parfor_Task` (include/par/parfor.hpp:29-34): which loop, which batch, and what running it does. -/
structure Task where
  job : Nat
  idx : Nat
  body : Body

/-- Where PBC_Wait is (include/par/parfor.cpp:420-449). -/
inductive Phase where
  | load | pop | lock | check | wait1 | sleep | wakeLock | wakeHold
  deriving DecidableEq, Repr

/-- A frame of a call stack. -/
inductive Frame where
  /-- running code: a batch of a loop, or (none) a thread's own code or the single batch of a loop that is not split -/
  | run (task : Option (Nat × Nat)) (b : Body)
  /-- parallel_for: about to push the tasks `ts`, then run batch `k` itself -/
  | submit (j : Nat) (ts : List Task) (k : Nat) (b : Body)
  /-- parallel_for: about to notify a worker -/
  | announce (j k : Nat) (b : Body)
  /-- PBC_Decrement: before the decrement, before the lock, holding it, before the notification -/
  | dec (j : Nat)
  | decLock (j : Nat)
  | decHold (j : Nat)
  | decNotify (j : Nat)
  | wait (j : Nat) (p : Phase)
  /-- a worker's loop: about to pop (with its `notify_another`), asleep, about to notify another worker -/
  | wpop (na : Bool)
  | wsleep
  | wnote

/-- Everything shared, and ghost counters. -/
structure Glob (N : Nat) where
  stack : List Task
  next : Nat
  size : Nat → Nat
  pending : Nat → Nat
  held : Nat → Option (Fin N)
  /-- how often a batch has been run to the end -/
  ran : Nat → Nat → Nat
  /-- the loop's call has returned: its stack frame, with counter and tasks, is gone -/
  returned : Nat → Bool

def upd {β : Type} (f : Nat → β) (i : Nat) (b : β) : Nat → β := fun x => if x = i then b else f x

/-- What a step does to other threads. -/
inductive Wake (N : Nat) where
  | none
  | worker (t : Fin N)
  | all (slot : Nat)

/-- One step of thread `t` whose top frame is the first argument: the frames that replace it, the new shared state, and
who is woken. -/
inductive Act {N : Nat} (slot : Nat → Nat) (g : Glob N) (t : Fin N) : Frame → List Frame → Glob N → Wake N → Prop where
  | work (k b) : Act slot g t (.run k (.work b)) [.run k b] g .none
  /-- parallel_for, include/par/parfor.cpp:538-542: one batch only, run in place, no counter -/
  | inline (k f b) : Act slot g t (.run k (.par 0 f b)) [.run none (f 0), .run k b] g .none
  /-- parallel_for, include/par/parfor.cpp:508-548: tasks and counter set up on the caller's stack -/
  | spawn (k m f b) : Act slot g t (.run k (.par (m + 1) f b))
      [.submit g.next ((List.range (m + 1)).map fun i => ⟨g.next, i, f i⟩) (m + 1) (f (m + 1)), .run k b]
      { g with next := g.next + 1, size := upd g.size g.next (m + 2), pending := upd g.pending g.next (m + 2) } .none
  /-- TaskStack_Push, include/par/parfor.cpp:553 -/
  | submit (j ts k b) : Act slot g t (.submit j ts k b) [.announce j k b] { g with stack := ts ++ g.stack } .none
  /-- TaskStack_Notify and last.run, include/par/parfor.cpp:554-558; notifications may fail -/
  | announce (j k b) (w : Wake N) (hw : ∀ s, w ≠ .all s) :
      Act slot g t (.announce j k b) [.run (some (j, k)) b, .wait j .load] g w
  /-- a thread's own code, or an unsplit loop's body, ends -/
  | retNone : Act slot g t (.run none .ret) [] g .none
  /-- parfor_run, include/par/parfor.hpp:56-64: the batch is done, now decrement -/
  | retSome (j k) : Act slot g t (.run (some (j, k)) .ret) [.dec j]
      { g with ran := upd g.ran j (upd (g.ran j) k (g.ran j k + 1)) } .none
  /-- PBC_Decrement, include/par/parfor.cpp:369 -/
  | decLast (j) (h : g.pending j = 1) :
      Act slot g t (.dec j) [.decLock j] { g with pending := upd g.pending j (g.pending j - 1) } .none
  | decMore (j) (h : g.pending j ≠ 1) :
      Act slot g t (.dec j) [] { g with pending := upd g.pending j (g.pending j - 1) } .none
  /-- include/par/parfor.cpp:373-387: only the counter's address is used from here on -/
  | decLock (j) (h : g.held (slot j) = none) :
      Act slot g t (.decLock j) [.decHold j] { g with held := upd g.held (slot j) (some t) } .none
  | decUnlock (j) : Act slot g t (.decHold j) [.decNotify j] { g with held := upd g.held (slot j) none } .none
  /-- include/par/parfor.cpp:393 -/
  | decNotify (j) : Act slot g t (.decNotify j) [] g (.all (slot j))
  /-- PBC_Wait, include/par/parfor.cpp:422 -/
  | waitDone (j) (h : g.pending j = 0) :
      Act slot g t (.wait j .load) [] { g with returned := upd g.returned j true } .none
  | waitMore (j) (h : g.pending j ≠ 0) : Act slot g t (.wait j .load) [.wait j .pop] g .none
  /-- TaskStack_TryWork, include/par/parfor.cpp:187-197 -/
  | waitPop (j x st) (h : g.stack = x :: st) :
      Act slot g t (.wait j .pop) [.run (some (x.job, x.idx)) x.body, .wait j .load] { g with stack := st } .none
  | waitEmpty (j) (h : g.stack = []) : Act slot g t (.wait j .pop) [.wait j .lock] g .none
  /-- include/par/parfor.cpp:430 -/
  | waitLock (j) (h : g.held (slot j) = none) :
      Act slot g t (.wait j .lock) [.wait j .check] { g with held := upd g.held (slot j) (some t) } .none
  /-- include/par/parfor.cpp:440-441 -/
  | checkDone (j) (h : g.pending j = 0) :
      Act slot g t (.wait j .check) []
        { g with held := upd g.held (slot j) none, returned := upd g.returned j true } .none
  | checkMore (j) (h : g.pending j ≠ 0) : Act slot g t (.wait j .check) [.wait j .wait1] g .none
  /-- include/par/parfor.cpp:443 cv.wait: unlock and fall asleep in one step; on waking lock again, then leave the block -/
  | sleep (j) : Act slot g t (.wait j .wait1) [.wait j .sleep] { g with held := upd g.held (slot j) none } .none
  | wakeLock (j) (h : g.held (slot j) = none) :
      Act slot g t (.wait j .wakeLock) [.wait j .wakeHold] { g with held := upd g.held (slot j) (some t) } .none
  | wakeUnlock (j) :
      Act slot g t (.wait j .wakeHold) [.wait j .load] { g with held := upd g.held (slot j) none } .none
  /-- TaskStack_Worker_Loop, include/par/parfor.cpp:152-185.  The mutex that goes with the workers' condition variable is
  only ever held by a worker on its way to sleep or waking, and is left out. -/
  | wpop (na x st) (h : g.stack = x :: st) :
      Act slot g t (.wpop na)
        ((if na then [.wnote] else []) ++ [.run (some (x.job, x.idx)) x.body, .wpop false]) { g with stack := st } .none
  | wempty (na) (h : g.stack = []) : Act slot g t (.wpop na) [.wsleep] g .none
  | wnote (w : Wake N) (hw : ∀ s, w ≠ .all s) : Act slot g t .wnote [] g w

/-- Waking a sleeper: a waiting caller goes on to lock the mutex again, a worker tries to pop again. -/
def wakeTop {N : Nat} (slot : Nat → Nat) (w : Wake N) (u : Fin N) (fs : List Frame) : List Frame :=
  match w, fs with
  | .worker t, .wsleep :: r => if u = t then .wpop true :: r else .wsleep :: r
  | .all s, .wait j .sleep :: r => if slot j = s then .wait j .wakeLock :: r else .wait j .sleep :: r
  | _, fs => fs

structure State (N : Nat) where
  g : Glob N
  th : Fin N → List Frame

/-- One step that is not a spurious wake-up. -/
inductive Step {N : Nat} (slot : Nat → Nat) : State N → State N → Prop where
  | act (s : State N) (t : Fin N) (f : Frame) (rest fs : List Frame) (g' : Glob N) (w : Wake N)
      (ht : s.th t = f :: rest) (ha : Act slot s.g t f fs g' w) :
      Step slot s { g := g', th := fun u => wakeTop slot w u (Function.update s.th t (fs ++ rest) u) }

/-- A condition variable may return from waiting for no reason. -/
inductive Spurious {N : Nat} : State N → State N → Prop where
  | caller (s : State N) (t : Fin N) (j : Nat) (rest : List Frame) (ht : s.th t = .wait j .sleep :: rest) :
      Spurious s { s with th := Function.update s.th t (.wait j .wakeLock :: rest) }
  | worker (s : State N) (t : Fin N) (rest : List Frame) (ht : s.th t = .wsleep :: rest) :
      Spurious s { s with th := Function.update s.th t (.wpop true :: rest) }

def Glob.init (N : Nat) : Glob N :=
  { stack := [], next := 0, size := fun _ => 0, pending := fun _ => 0, held := fun _ => none,
    ran := fun _ _ => 0, returned := fun _ => false }

/-- User threads run a program each, the other threads are workers. -/
def init {N : Nat} (prog : Fin N → Option Body) : State N :=
  { g := Glob.init N
    th := fun t => match prog t with
      | some b => [.run none b]
      | none => [.wpop false] }

inductive Reachable {N : Nat} (slot : Nat → Nat) (prog : Fin N → Option Body) : State N → Prop where
  | init : Reachable slot prog (init prog)
  | step {s s' : State N} : Reachable slot prog s → Step slot s s' → Reachable slot prog s'
  | spurious {s s' : State N} : Reachable slot prog s → Spurious s s' → Reachable slot prog s'

end Verif.Parfor
