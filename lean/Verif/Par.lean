import Verif.Parfor
/-! # par::each, par::zip, par::map

lib/par.fu:1-56. The batches are those of `parallel_for` (`Verif.Parfor`: each runs once, before the call returns); here they run in any
interleaving, one step of a block at a time. -/
namespace Verif.Par
open Verif.Parfor (Range ranges perBatchOf)

/-- A block as the compiler lets it through (`purectx`, `noflow`: lib/par.fu:23-29): of what others can see it reads and writes what is
at its own index (`α`), and otherwise has variables of its own (`σ`). One step at a time; `none`: it is over. -/
structure Visit (α σ : Type) where
  start : Nat → α → σ
  next : Nat → α → σ → Option (α × σ)

/-- one batch: lib/par.fu:42-52, the loop from `cur` to `stop`, and the variables of the block it is in -/
structure Batch (σ : Type) where
  cur : Nat
  stop : Nat
  loc : Option σ

structure St (α σ : Type) where
  cells : List α
  batches : List (Batch σ)

/-- a step of one of the batches (of whatever thread) -/
inductive Step {α σ : Type} (V : Visit α σ) : St α σ → St α σ → Prop where
  /-- `i < end`: the block is entered -/
  | enter (s : St α σ) (k : Nat) (b : Batch σ) (a : α) : s.batches[k]? = some b → b.loc = none → b.cur < b.stop → s.cells[b.cur]? = some a →
      Step V s { s with batches := s.batches.set k { b with loc := some (V.start b.cur a) } }
  /-- a step of the block -/
  | work (s : St α σ) (k : Nat) (b : Batch σ) (a a' : α) (l l' : σ) : s.batches[k]? = some b → b.loc = some l → s.cells[b.cur]? = some a →
      V.next b.cur a l = some (a', l') →
      Step V s ⟨s.cells.set b.cur a', s.batches.set k { b with loc := some l' }⟩
  /-- it is over; `i++` -/
  | leave (s : St α σ) (k : Nat) (b : Batch σ) (a : α) (l : σ) : s.batches[k]? = some b → b.loc = some l → s.cells[b.cur]? = some a →
      V.next b.cur a l = none →
      Step V s { s with batches := s.batches.set k { b with cur := b.cur + 1, loc := none } }

/-- lib/par.fu:30-41: `parallel_for(min, end: n)` begins -/
def begin {α σ : Type} (workers : Nat) (min : Int) (n : Nat) (cells : List α) : St α σ :=
  ⟨cells, (ranges workers n (perBatchOf min)).map fun r => ⟨r.start, r.stop, none⟩⟩

inductive Reachable {α σ : Type} (V : Visit α σ) (workers : Nat) (min : Int) (n : Nat) (cells : List α) : St α σ → Prop where
  | begin : Reachable V workers min n cells (begin workers min n cells)
  | step {s t : St α σ} : Reachable V workers min n cells s → Step V s t → Reachable V workers min n cells t

/-- all batches are through their loops: the call returns -/
def Over {α σ : Type} (s : St α σ) : Prop := ∀ b ∈ s.batches, b.loc = none ∧ ¬ b.cur < b.stop

/-- lib/par.fu:1-3 (`each`): up to the length -/
def eachEnd {α : Type} (arr : List α) : Nat := arr.length

/-- lib/par.fu:5-7 (`zip`): a cell is what both have at an index; up to the shorter's length -/
def zipEnd {α β : Type} (a : List α) (b : List β) : Nat := min a.length b.length

/-- a block with a result, which reads what is at its index -/
structure Fn (α β σ : Type) where
  start : Nat → α → σ
  step : Nat → α → σ → σ ⊕ β

/-- lib/par.fu:14-15: `result[i] = visit(arr[i], i)` -/
def mapVisit {α β σ : Type} (F : Fn α β σ) : Visit (α × β) (Option σ) where
  start i c := some (F.start i c.1)
  next i c l := match l with
    | none => none
    | some l => match F.step i c.1 l with
      | .inl l' => some (c, some l')
      | .inr r => some ((c.1, r), none)

/-- lib/par.fu:11-12: the results begin as whatever there is -/
def mapCells {α β : Type} (arr : List α) (junk : Nat → β) : List (α × β) := arr.zipIdx.map fun p => (p.1, junk p.2)

end Verif.Par
