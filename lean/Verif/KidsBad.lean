import Verif.KidsProps
/-!
# Runs of an event loop with children that go wrong

Each is a run the kernel can produce, with concrete answers. Descriptors 0 to 2 are the program's, 3 is the loop's; child 100 has
one pipe, 4, and pid descriptor 5.

When a child has ended before `spawn` adds its descriptors to the interest list, they are found ready in the order they are added: the
pid descriptor first. So the batches below are those of a child that ends at once.
-/
namespace Verif.Kids
open Verif.Ev (Owner Ep Reg EAGAIN)

/-- The value, or nothing known. -/
def R.get : R St → St
  | .ok s => s
  | .fault _ => before []

/-- Nothing is done. -/
def quiet : Choice := ⟨[], 0, [], []⟩

/-- The program starts one child whose output it reads. -/
def one (dbg : Bool) : St := (start dbg [0, 1, 2] 3 [.spawn (some ⟨100, 0, 4, 0⟩) 5 []]).get

/-- The program starts one child whose input it writes. -/
def oneIn (dbg : Bool) : St := (start dbg [0, 1, 2] 3 [.spawn (some ⟨100, 4, 0, 0⟩) 5 []]).get

instance (r : Reg) (e : Ep) : Decidable (Ev.Allowed r e) := by unfold Ev.Allowed; infer_instance

theorem one_reach (dbg : Bool) : Reach dbg (one dbg) := by
  cases dbg
  · exact .start [0, 1, 2] 3 [.spawn (some ⟨100, 0, 4, 0⟩) 5 []] _ (by decide) (by decide) rfl
  · exact .start [0, 1, 2] 3 [.spawn (some ⟨100, 0, 4, 0⟩) 5 []] _ (by decide) (by decide) rfl

theorem oneIn_reach (dbg : Bool) : Reach dbg (oneIn dbg) := by
  cases dbg
  · exact .start [0, 1, 2] 3 [.spawn (some ⟨100, 4, 0, 0⟩) 5 []] _ (by decide) (by decide) rfl
  · exact .start [0, 1, 2] 3 [.spawn (some ⟨100, 4, 0, 0⟩) 5 []] _ (by decide) (by decide) rfl

theorem one_calm (dbg : Bool) : CalmReach dbg (one dbg) := by
  cases dbg
  · exact .start [0, 1, 2] 3 [.spawn (some ⟨100, 0, 4, 0⟩) 5 []] _ (by decide) (by decide) rfl
  · exact .start [0, 1, 2] 3 [.spawn (some ⟨100, 0, 4, 0⟩) 5 []] _ (by decide) (by decide) rfl

/-! ## A calm run with something in it -/

/-- The child writes, then ends; the handler reads all there is. -/
def calmRun (dbg : Bool) : St :=
  let s := deliver (one dbg) [(4, { inn := true }), (5, { inn := true })]
  let s := (handle dbg s ⟨[.read false 0 10, .read false EAGAIN 0], 0, [], []⟩).get
  (handle dbg s ⟨[], 0, [.spawn (some ⟨200, 0, 4, 6⟩) 5 []], []⟩).get

/-- Calm runs have children that write, are read, end, and are replaced. -/
theorem calm_example (dbg : Bool) : CalmReach dbg (calmRun dbg) ∧ (calmRun dbg).ended = false ∧ (calmRun dbg).kids = [200] ∧ (calmRun dbg).trace =
    [.userOpen 0, .userOpen 1, .userOpen 2, .create 3, .create 4, .create 5, .spawned 100 5 0 4 0,
     .event 100 false true false, .read 100 1 4, .read 100 1 4, .close 4, .close 5, .closed 100 0,
     .create 4, .create 6, .create 5, .spawned 200 5 0 4 6] := by
  refine ⟨?_, ?_⟩
  · have w : CalmReach dbg (deliver (one dbg) [(4, { inn := true }), (5, { inn := true })]) := by
      refine .wait _ _ (one_calm dbg) (by cases dbg <;> rfl) (by cases dbg <;> rfl) (by decide) ?_ (by decide) ?_
      · intro e he
        rcases List.mem_cons.1 he with rfl | he
        · cases dbg <;> exact ⟨⟨udOf 1 2, true, false, false, true, true⟩, rfl, rfl, by decide⟩
        · rcases List.mem_cons.1 he with rfl | he
          · cases dbg <;> exact ⟨⟨udOf 1 0, true, false, false, true, true⟩, rfl, rfl, by decide⟩
          · cases he
      · have : (deliver (one dbg) [(4, { inn := true }), (5, { inn := true })]).pending = [(udOf 1 2, { inn := true }), (udOf 1 0, { inn := true })] := by
          cases dbg <;> rfl
        rw [this]
        refine List.pairwise_cons.2 ⟨?_, List.pairwise_singleton ..⟩
        rintro q hq ⟨h1, h2⟩
        exact absurd h1 (by decide)
    have c1 : ∀ b e n, Call.read b e n ∈ [Call.read false 0 10, .read false EAGAIN 0] → e = 0 ∨ e = EAGAIN := by
      intro b e n hm
      simp only [List.mem_cons, Call.read.injEq, List.not_mem_nil, or_false] at hm
      rcases hm with ⟨_, rfl, _⟩ | ⟨_, rfl, _⟩
      · exact Or.inl rfl
      · exact Or.inr rfl
    cases dbg
    · exact .handle _ ⟨[], 0, [.spawn (some ⟨200, 0, 4, 6⟩) 5 []], []⟩ _ (.handle _ ⟨[.read false 0 10, .read false EAGAIN 0], 0, [], []⟩ _ w
        rfl c1 rfl) rfl (fun b e n hm => by cases hm) rfl
    · exact .handle _ ⟨[], 0, [.spawn (some ⟨200, 0, 4, 6⟩) 5 []], []⟩ _ (.handle _ ⟨[.read false 0 10, .read false EAGAIN 0], 0, [], []⟩ _ w
        rfl c1 rfl) rfl (fun b e n hm => by cases hm) rfl
  · cases dbg <;> decide +kernel

/-! ## The end of a child before its other events -/

/-- The child has ended, and its output too. -/
def batch : List (Nat × Ep) := [(5, { inn := true }), (4, { hup := true })]

theorem batch_reach (dbg : Bool) : Reach dbg (deliver (one dbg) batch) := by
  refine .wait _ _ (one_reach dbg) (by cases dbg <;> rfl) (by cases dbg <;> rfl) (by decide) ?_
  intro e he
  rcases List.mem_cons.1 he with rfl | he
  · cases dbg <;> exact ⟨⟨udOf 1 0, true, false, false, true, true⟩, rfl, rfl, by decide⟩
  · rcases List.mem_cons.1 he with rfl | he
    · cases dbg <;> exact ⟨⟨udOf 1 2, true, false, false, true, true⟩, rfl, rfl, by decide⟩
    · cases he

/-- **C90** (the full property is false) In a debug build, a child that ends at once stops the program: its second event is for a record no
longer in use. -/
theorem stale_event_asserts : ∃ s c, Reach true s ∧ s.ended = false ∧ handle true s c = .fault .badSlot :=
  ⟨_, quiet, .handle _ quiet _ (batch_reach true) rfl rfl, rfl, rfl⟩

/-- The child has ended, so nobody reads its input: an error (`poll(2)`). -/
def batchErr : List (Nat × Ep) := [(5, { inn := true }), (4, { out := true, err := true })]

theorem batchErr_reach (dbg : Bool) : Reach dbg (deliver (oneIn dbg) batchErr) := by
  refine .wait _ _ (oneIn_reach dbg) (by cases dbg <;> rfl) (by cases dbg <;> rfl) (by decide) ?_
  intro e he
  rcases List.mem_cons.1 he with rfl | he
  · cases dbg <;> exact ⟨⟨udOf 1 0, true, false, false, true, true⟩, rfl, rfl, by decide⟩
  · rcases List.mem_cons.1 he with rfl | he
    · cases dbg <;> exact ⟨⟨udOf 1 1, false, true, false, true, true⟩, rfl, rfl, by decide⟩
    · cases he

/-- **C90** (the full property is false) In a release build the program is told of an event of child 0, and then the loop calls `kill(0, SIGKILL)`:
the whole process group is killed, the program itself included. -/
theorem stale_event_kills_group : ∃ s, Reach false s ∧ s.trace =
    [.userOpen 0, .userOpen 1, .userOpen 2, .create 3, .create 4, .create 5, .spawned 100 5 4 0 0,
     .close 4, .close 5, .closed 100 0, .event 0 true false false, .kill 0] :=
  ⟨_, .handle _ quiet _ (.handle _ quiet _ (batchErr_reach false) rfl rfl) rfl rfl, by decide +kernel⟩

/-- **C90** (the full property is false) If the program starts another child when told of the end of the first, the second event of the first closes
the output of the other, which has not written yet. -/
theorem stale_event_wrong_child (dbg : Bool) : ∃ s, Reach dbg s ∧ s.trace =
    [.userOpen 0, .userOpen 1, .userOpen 2, .create 3, .create 4, .create 5, .spawned 100 5 0 4 0,
     .close 4, .close 5, .closed 100 0, .create 7, .create 8, .spawned 200 8 0 7 0, .close 7] := by
  cases dbg
  · exact ⟨_, .handle _ quiet _ (.handle _ ⟨[], 0, [.spawn (some ⟨200, 0, 7, 0⟩) 8 []], []⟩ _ (batch_reach false) rfl rfl) rfl rfl, by decide +kernel⟩
  · exact ⟨_, .handle _ quiet _ (.handle _ ⟨[], 0, [.spawn (some ⟨200, 0, 7, 0⟩) 8 []], []⟩ _ (batch_reach true) rfl rfl) rfl rfl, by decide +kernel⟩

/-! ## Errors -/

/-- Nobody reads the child's input; then it ends. -/
def batchLate : List (Nat × Ep) := [(4, { out := true, err := true }), (5, { inn := true })]

theorem batchLate_reach (dbg : Bool) : Reach dbg (deliver (oneIn dbg) batchLate) := by
  refine .wait _ _ (oneIn_reach dbg) (by cases dbg <;> rfl) (by cases dbg <;> rfl) (by decide) ?_
  intro e he
  rcases List.mem_cons.1 he with rfl | he
  · cases dbg <;> exact ⟨⟨udOf 1 1, false, true, false, true, true⟩, rfl, rfl, by decide⟩
  · rcases List.mem_cons.1 he with rfl | he
    · cases dbg <;> exact ⟨⟨udOf 1 0, true, false, false, true, true⟩, rfl, rfl, by decide⟩
    · cases he

/-- **C90** (the full property is false) After an error on a pipe the loop closes the pipes of the child and kills it, but does not note that they are
closed: when the child ends, it closes them again, and the program stops at an assertion. In any build. -/
theorem error_then_exit (dbg : Bool) : ∃ s c, Reach dbg s ∧ s.ended = false ∧ handle dbg s c = .fault .notListed := by
  cases dbg
  · exact ⟨_, quiet, .handle _ quiet _ (batchLate_reach false) rfl rfl, rfl, rfl⟩
  · exact ⟨_, quiet, .handle _ quiet _ (batchLate_reach true) rfl rfl, rfl, rfl⟩

/-! ## Output that is not read -/

/-- **C90** (the full property is false) In a calm run a child may end with its output unread: the pipe is closed, with whatever is in it, and the program is told
only that the child ended. -/
theorem output_lost (dbg : Bool) : ∃ s, CalmReach dbg s ∧ s.trace =
    [.userOpen 0, .userOpen 1, .userOpen 2, .create 3, .create 4, .create 5, .spawned 100 5 0 4 0, .close 4, .close 5, .closed 100 0] := by
  have w : CalmReach dbg (deliver (one dbg) [(5, { inn := true })]) := by
    refine .wait _ _ (one_calm dbg) (by cases dbg <;> rfl) (by cases dbg <;> rfl) (by decide) ?_ (by decide) ?_
    · intro e he
      rcases List.mem_cons.1 he with rfl | he
      · cases dbg <;> exact ⟨⟨udOf 1 0, true, false, false, true, true⟩, rfl, rfl, by decide⟩
      · cases he
    · have : (deliver (one dbg) [(5, { inn := true })]).pending = [(udOf 1 0, { inn := true })] := by
        cases dbg <;> rfl
      rw [this]
      exact List.pairwise_singleton ..
  cases dbg
  · exact ⟨_, .handle _ quiet _ w rfl (fun b e n hm => by cases hm) rfl, by decide +kernel⟩
  · exact ⟨_, .handle _ quiet _ w rfl (fun b e n hm => by cases hm) rfl, by decide +kernel⟩

end Verif.Kids
