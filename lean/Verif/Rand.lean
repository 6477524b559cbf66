import Verif.Basic
import Verif.Loop
/-!
# Model of `lib/rand.fu` and `lib/shuffle.fu`
-/
namespace Verif.Rand
open Verif

/-- lib/rand.fu:42-44 (also 20-22): one xorshift step of the 64-bit state. -/
def step64 (x : BitVec 64) : BitVec 64 :=
  let x := x ^^^ (x >>> 12)
  let x := x ^^^ (x <<< 25)
  x ^^^ (x >>> 27)

/-- lib/rand.fu:56: the multiplier applied to the state a caller obtained. -/
def scramble (x : BitVec 64) : BitVec 64 := x * 0x2545f4914f6cdd1d#64

/-- lib/rand.fu:9-26 `rand_u64_seed`; the clock is arbitrary. -/
def seed (sec usec : BitVec 64) : BitVec 64 :=
  Nat.repeat step64 16 (1#64 ||| usec ||| (sec <<< 32))

/-- What a thread in `next_u64` (lib/rand.fu:31-57) holds: nothing, or the value `prev` it last read. -/
inductive Thread where
  | idle
  | have_ (prev : BitVec 64)

/-- The atomic `rand_u64_state`, the threads, and the numbers handed out so far (latest first). -/
structure State where
  shared : BitVec 64
  threads : Nat → Thread
  log : List (BitVec 64)

/-- lib/rand.fu:36-53.  One atomic access of one thread.  `compare_exchange_weak` may fail for no reason; on failure it
stores the current value in `prev`. -/
inductive Step : State → State → Prop where
  | load (s : State) (t : Nat) (h : s.threads t = .idle) :
      Step s { s with threads := fun i => if i = t then .have_ s.shared else s.threads i }
  | casOk (s : State) (t : Nat) (prev : BitVec 64) (h : s.threads t = .have_ prev) (he : s.shared = prev) :
      Step s { shared := step64 prev,
               threads := fun i => if i = t then .idle else s.threads i,
               log := scramble (step64 prev) :: s.log }
  | casFail (s : State) (t : Nat) (prev : BitVec 64) (h : s.threads t = .have_ prev) :
      Step s { s with threads := fun i => if i = t then .have_ s.shared else s.threads i }

/-- Every interleaving of any number of calls by any number of threads. -/
inductive Reachable (s0 : BitVec 64) : State → Prop where
  | init : Reachable s0 { shared := s0, threads := fun _ => .idle, log := [] }
  | step {s s' : State} : Reachable s0 s → Step s s' → Reachable s0 s'

/-! ## `shuffle` -/

/-- lib/shuffle.fu:2-8 `xorshift32`. -/
def step32 (x : BitVec 32) : BitVec 32 :=
  let x := x ^^^ (x <<< 13)
  let x := x ^^^ (x >>> 17)
  x ^^^ (x <<< 5)

variable {α : Type}

/-- `arr.swap(i, j)` (src/prelude.fu), with the bounds checks of indexing. -/
def swap (l : List α) (i j : Nat) : Option (List α) := do
  let a ← l[i]?
  let b ← l[j]?
  some ((l.set i b).set j a)

/-- lib/shuffle.fu:15-20, the loop for an arbitrary source of random words: `draw i` is `seed` in iteration `i`. -/
def shuffleBy (draw : Nat → BitVec 32) (arr : List α) : Option (List α) :=
  forUp 0 (arr.length - 1) arr fun i a => swap a i (i + (draw i).toNat % (arr.length - i))

/-- lib/shuffle.fu:10-21 `shuffle(arr, seed)`: the array and the seed afterwards.  Lengths are below 2^31. -/
def shuffle (arr : List α) (seed : BitVec 32) : Option (List α × BitVec 32) :=
  let seed := if seed = 0#32 then BitVec.ofNat 32 arr.length else seed
  forUp 0 (arr.length - 1) (arr, seed) fun i (a, seed) => do
    let seed := step32 seed
    let idx := i + seed.toNat % (arr.length - i)
    let a ← swap a i idx
    some (a, seed)

end Verif.Rand
