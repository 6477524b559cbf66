import Mathlib.Data.Set.Basic
/-!
# Model of the lock-free stack (`include/lockfree/stack.hpp`)

Addresses are numbers, 0 is the null pointer.  `head` holds a pointer and a count of the changes made to it so far; the
code stores the count in the upper bits of the word, so it is compared modulo `M` (`M = 0` stands for a tag that never
wraps).  Each load, store and compare-exchange is one step; the steps of any number of threads interleave in every order
(sequential consistency).  A weak compare-exchange may fail for no reason.  Memory of nodes that are not in the stack
belongs to some client thread, which may write anything into it at any time (the code puts nodes on the callers' stacks).
-/
namespace Verif.Treiber

/-! ## The tagged word -/

def two64 : Nat := 2 ^ 64
def ptr48 : Nat := 2 ^ 48 - 1

/-- include/lockfree/stack.hpp:33-45 on 64-bit words; `a` is ALIGN_BITS. -/
def tag (a ptr lastID : Nat) : Nat := (ptr >>> a) ||| (((lastID + 1) % two64) <<< (48 - a)) % two64
/-- include/lockfree/stack.hpp:47-52 -/
def untag (a w : Nat) : Nat := ((w <<< a) % two64) &&& ptr48
/-- include/lockfree/stack.hpp:54-57 -/
def tagof (a w : Nat) : Nat := w >>> (48 - a)

/-! ## Threads -/

abbrev Addr := Nat
abbrev Thread := Nat

structure Head where
  ptr : Addr
  cnt : Nat
  deriving DecidableEq

/-- Where a thread is. -/
inductive Phase where
  | idle
  /-- push, include/lockfree/stack.hpp:67-68: before the first load -/
  | pushLoad (ch : List Addr)
  /-- push, :72-73: before the store to the last node's next -/
  | pushStore (ch : List Addr) (s0 : Head)
  /-- push, :79-85: before the compare-exchange -/
  | pushCas (ch : List Addr) (s0 : Head)
  | pushDone
  /-- try_pop, :91-92 -/
  | popLoad
  /-- try_pop, :96-101: about to test the pointer and load next -/
  | popNext (s0 : Head)
  /-- try_pop, :104-109 -/
  | popCas (s0 : Head) (n : Addr)
  | popDone (r : Option Addr)

structure State where
  head : Head
  next : Addr → Addr
  th : Thread → Phase
  /-- the nodes a client thread has: it may write to them and push them -/
  owns : Thread → Set Addr

inductive Event where
  | tau
  | invPush (t : Thread) (ch : List Addr)
  | resPush (t : Thread)
  | invPop (t : Thread)
  | resPop (t : Thread) (r : Option Addr)

def upd {β : Type} (f : Nat → β) (i : Nat) (b : β) : Nat → β := fun x => if x = i then b else f x

/-- The nodes of the chain are linked to one another. -/
def Seg (next : Addr → Addr) : List Addr → Prop
  | [] => True
  | [_] => True
  | x :: y :: l => next x = y ∧ Seg next (y :: l)

/-- The comparison of the compare-exchange: the pointers and the tags, which hold the count modulo `M`. -/
def same (M : Nat) (h s0 : Head) : Prop := h.ptr = s0.ptr ∧ h.cnt % M = s0.cnt % M

inductive Step (M : Nat) : Event → State → State → Prop where
  /-- a client calls push with a chain of its own nodes, linked up by it -/
  | callPush (s : State) (t : Thread) (ch : List Addr) (ht : s.th t = .idle) (h0 : ch ≠ []) (hz : 0 ∉ ch) (hn : ch.Nodup)
      (ho : ∀ x ∈ ch, x ∈ s.owns t) (hs : Seg s.next ch) :
      Step M (.invPush t ch) s
        { s with th := upd s.th t (.pushLoad ch), owns := upd s.owns t ({x | x ∈ s.owns t ∧ x ∉ ch}) }
  | pushLoad (s : State) (t : Thread) (ch : List Addr) (ht : s.th t = .pushLoad ch) :
      Step M .tau s { s with th := upd s.th t (.pushStore ch s.head) }
  | pushStore (s : State) (t : Thread) (ch : List Addr) (s0 : Head) (l : Addr) (ht : s.th t = .pushStore ch s0)
      (hl : ch.getLast? = some l) :
      Step M .tau s { s with th := upd s.th t (.pushCas ch s0), next := upd s.next l s0.ptr }
  | pushCasOk (s : State) (t : Thread) (ch : List Addr) (s0 : Head) (f : Addr) (ht : s.th t = .pushCas ch s0)
      (hf : ch.head? = some f) (hc : same M s.head s0) :
      Step M .tau s { s with th := upd s.th t .pushDone, head := ⟨f, s.head.cnt + 1⟩ }
  | pushCasFail (s : State) (t : Thread) (ch : List Addr) (s0 : Head) (ht : s.th t = .pushCas ch s0) :
      Step M .tau s { s with th := upd s.th t (.pushStore ch s.head) }
  | retPush (s : State) (t : Thread) (ht : s.th t = .pushDone) :
      Step M (.resPush t) s { s with th := upd s.th t .idle }
  | callPop (s : State) (t : Thread) (ht : s.th t = .idle) :
      Step M (.invPop t) s { s with th := upd s.th t .popLoad }
  | popLoad (s : State) (t : Thread) (ht : s.th t = .popLoad) :
      Step M .tau s { s with th := upd s.th t (.popNext s.head) }
  | popNull (s : State) (t : Thread) (s0 : Head) (ht : s.th t = .popNext s0) (hz : s0.ptr = 0) :
      Step M .tau s { s with th := upd s.th t (.popDone none) }
  | popNext (s : State) (t : Thread) (s0 : Head) (ht : s.th t = .popNext s0) (hz : s0.ptr ≠ 0) :
      Step M .tau s { s with th := upd s.th t (.popCas s0 (s.next s0.ptr)) }
  | popCasOk (s : State) (t : Thread) (s0 : Head) (n : Addr) (ht : s.th t = .popCas s0 n) (hc : same M s.head s0) :
      Step M .tau s { s with th := upd s.th t (.popDone (some s0.ptr)), head := ⟨n, s.head.cnt + 1⟩ }
  | popCasFail (s : State) (t : Thread) (s0 : Head) (n : Addr) (ht : s.th t = .popCas s0 n) :
      Step M .tau s { s with th := upd s.th t (.popNext s.head) }
  | retPop (s : State) (t : Thread) (r : Option Addr) (ht : s.th t = .popDone r) :
      Step M (.resPop t r) s { s with th := upd s.th t .idle, owns := upd s.owns t {x | x ∈ s.owns t ∨ r = some x} }
  /-- clients write to their nodes and pass them to each other -/
  | write (s : State) (t : Thread) (x v : Addr) (ho : x ∈ s.owns t) :
      Step M .tau s { s with next := upd s.next x v }
  | give (s : State) (t u : Thread) (x : Addr) (ho : x ∈ s.owns t) (htu : t ≠ u) :
      Step M .tau s { s with owns := upd (upd s.owns t {y | y ∈ s.owns t ∧ y ≠ x}) u {y | y ∈ s.owns u ∨ y = x} }

/-- At the start the stack is empty and the nodes are distributed among the threads. -/
def init (owns : Thread → Set Addr) : State :=
  { head := ⟨0, 0⟩, next := fun _ => 0, th := fun _ => .idle, owns := owns }

/-- Fewer than `M` changes were made to the head since any pending operation read it. -/
def Fresh (M : Nat) (s : State) : Prop :=
  M = 0 ∨ ∀ t s0, (∃ ch, s.th t = .pushCas ch s0) ∨ (∃ n, s.th t = .popCas s0 n) → s.head.cnt < s0.cnt + M

/-- Executions, with the calls and returns that happened, in order. -/
inductive Exec (M : Nat) (owns : Thread → Set Addr) (fresh : Bool) : List Event → State → Prop where
  | init : Exec M owns fresh [] (init owns)
  | step {es : List Event} {e : Event} {s s' : State} : Exec M owns fresh es s → (fresh = true → Fresh M s) →
      Step M e s s' → Exec M owns fresh (es ++ [e]) s'

/-! ## Specification: an atomic stack -/

inductive APhase where
  | idle
  | pushing (ch : List Addr)
  | pushed
  | popping
  | popped (r : Option Addr)

structure AState where
  stack : List Addr
  th : Thread → APhase

/-- An operation is called, takes effect at one moment (an internal step), and returns what it then saw. -/
inductive AStep : Event → AState → AState → Prop where
  | callPush (a : AState) (t ch) (h : a.th t = .idle) : AStep (.invPush t ch) a { a with th := upd a.th t (.pushing ch) }
  | push (a : AState) (t ch) (h : a.th t = .pushing ch) :
      AStep .tau a { stack := ch ++ a.stack, th := upd a.th t .pushed }
  | retPush (a : AState) (t) (h : a.th t = .pushed) : AStep (.resPush t) a { a with th := upd a.th t .idle }
  | callPop (a : AState) (t) (h : a.th t = .idle) : AStep (.invPop t) a { a with th := upd a.th t .popping }
  | pop (a : AState) (t) (h : a.th t = .popping) :
      AStep .tau a { stack := a.stack.tail, th := upd a.th t (.popped a.stack.head?) }
  | retPop (a : AState) (t r) (h : a.th t = .popped r) : AStep (.resPop t r) a { a with th := upd a.th t .idle }

def AState.init : AState := { stack := [], th := fun _ => .idle }

/-- Executions of the atomic stack; internal steps may happen in between. -/
inductive AExec : List Event → AState → Prop where
  | init : AExec [] AState.init
  | step {es : List Event} {e : Event} {a a' : AState} : AExec es a → AStep e a a' → AExec (es ++ [e]) a'

/-- The calls and returns only. -/
def visible (es : List Event) : List Event :=
  es.filter fun e => match e with
    | .tau => false
    | _ => true

end Verif.Treiber
