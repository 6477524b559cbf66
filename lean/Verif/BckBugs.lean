import Verif.BckSound
/-! # C97: functions the checker accepts although they use a bad reference, and one it is right about

In all of them a vector is cleared, which makes a reference into it bad. -/
namespace Verif.Bck

/-- clearing `arr` makes the reference `first` bad -/
def cfg (neg arr first : Nat) : Cfg := ⟨neg, fun w => if w = arr then [first] else [], fun _ => false⟩

/-- what is wrong with an accepted function: it can use a reference that is bad -/
def Unsound (c : Cfg) (body : Node) : Prop :=
  (∃ τ, check c [] 0 body = .ok τ) ∧ (labels (.block 0 body)).Nodup ∧ (binds body).Nodup ∧
  ∃ d, Run c (.block 0 body) (fun _ => False) .wrong d

/-- `ref first = arr[0]; arr.clear(); if (c) { x++; if (d) return; } first++`: a jump in what may be skipped. The checker forgets
the events at the jump (14654-14656) and `bck_and_or` (14471) does not put them back. -/
theorem skipped_jump : Unsound (cfg 0 1 2)
    (.seq (.bind 2 .skip) (.seq (.write 1) (.seq (.opt (.opt (.jump 0 .skip))) (.read 2)))) := by
  refine ⟨⟨_, rfl⟩, by decide, by decide, fun v => (False ∧ v ≠ 2) ∨ v ∈ (cfg 0 1 2).inv 1, ?_⟩
  refine .inl ⟨?_, by simp⟩
  refine .inr ⟨fun v => False ∧ v ≠ 2, .inr ⟨_, ⟨rfl, rfl⟩, ⟨rfl, rfl⟩⟩, ?_⟩
  refine .inr ⟨_, ⟨rfl, rfl⟩, ?_⟩
  refine .inr ⟨_, .inl ⟨rfl, rfl⟩, ⟨rfl, .inl ⟨rfl, rfl, .inr ?_⟩⟩⟩
  simp [cfg]

/-- `ref first = arr[0]; loop { if (c) { arr.clear(); break; } else {} } first++`: what is known at a `break` is kept with the
loop's label, and `bck_loop` (14412) does not look there. -/
theorem break_out : Unsound (cfg 0 1 2)
    (.seq (.bind 2 .skip) (.seq (.loop 1 3 .skip .skip (.cond .skip (.seq (.write 1) (.jump 1 .skip)) .skip)) (.read 2))) := by
  refine ⟨⟨_, rfl⟩, by decide, by decide, fun v => (False ∧ v ≠ 2) ∨ v ∈ (cfg 0 1 2).inv 1, ?_⟩
  refine .inl ⟨?_, by simp⟩
  refine .inr ⟨fun v => False ∧ v ≠ 2, .inr ⟨_, ⟨rfl, rfl⟩, ⟨rfl, rfl⟩⟩, ?_⟩
  refine .inr ⟨fun v => (False ∧ v ≠ 2) ∨ v ∈ (cfg 0 1 2).inv 1, ?_, ⟨rfl, .inl ⟨rfl, rfl, .inr ?_⟩⟩⟩
  · refine .inr ⟨_, ⟨rfl, rfl⟩, .brk2 ⟨rfl, rfl⟩ ?_⟩
    refine .inr ⟨_, ⟨rfl, rfl⟩, .inl ?_⟩
    exact .inr ⟨_, ⟨rfl, rfl⟩, .inr ⟨_, ⟨rfl, rfl⟩, ⟨rfl, rfl⟩⟩⟩
  · simp [cfg]

/-- `fn f(ref arr) { ref first = arr[0]; loop { if (c) arr.clear(); else first++; } }`: `Events_restore` (172) cuts the table of
positions at the loop's first locid, which with an argument is one position too early. -/
theorem argument_shift : Unsound (cfg 1 0 2)
    (.seq (.bind 2 .skip) (.loop 1 2 .skip .skip (.cond .skip (.write 0) (.read 2)))) := by
  refine ⟨⟨_, rfl⟩, by decide, by decide, fun v => (False ∧ v ≠ 2) ∨ v ∈ (cfg 1 0 2).inv 0, ?_⟩
  refine .inl ⟨?_, by simp⟩
  refine .inr ⟨fun v => False ∧ v ≠ 2, .inr ⟨_, ⟨rfl, rfl⟩, ⟨rfl, rfl⟩⟩, ?_⟩
  refine .inr ⟨_, ⟨rfl, rfl⟩, ?_⟩
  refine .again ⟨rfl, rfl⟩ (.inr ⟨_, ⟨rfl, rfl⟩, .inl ⟨rfl, rfl⟩⟩) ?_
  refine .out2 ⟨rfl, rfl⟩ (.inr ⟨_, ⟨rfl, rfl⟩, .inr ⟨rfl, .inl ⟨rfl, rfl, .inr ?_⟩⟩⟩) (by simp) (by simp)
  simp [cfg]

/-- the same function without the argument is refused -/
theorem argument_shift_only : check (cfg 0 1 2) [] 0
    (.seq (.bind 2 .skip) (.loop 1 3 .skip .skip (.cond .skip (.write 1) (.read 2)))) = .error .refused := rfl

/-- `ref first = arr[0]; loop { arr.clear(); if (c) return; first++; }`: at the jump the checker forgets everything, and what it
puts back for the other branch leaves out what is older than the loop. -/
theorem return_in_loop : Unsound (cfg 0 1 2)
    (.seq (.bind 2 .skip) (.loop 1 3 .skip .skip (.seq (.write 1) (.cond .skip (.jump 0 .skip) (.read 2))))) := by
  refine ⟨⟨_, rfl⟩, by decide, by decide, fun v => (False ∧ v ≠ 2) ∨ v ∈ (cfg 0 1 2).inv 1, ?_⟩
  refine .inl ⟨?_, by simp⟩
  refine .inr ⟨fun v => False ∧ v ≠ 2, .inr ⟨_, ⟨rfl, rfl⟩, ⟨rfl, rfl⟩⟩, ?_⟩
  refine .inr ⟨_, ⟨rfl, rfl⟩, ?_⟩
  refine .out2 ⟨rfl, rfl⟩ (.inr ⟨_, ⟨rfl, rfl⟩, .inr ⟨_, ⟨rfl, rfl⟩, .inr ⟨rfl, .inl ⟨rfl, rfl, .inr ?_⟩⟩⟩⟩) (by simp) (by simp)
  simp [cfg]

/-- `for (ref r = arr[0];;) { r++; arr.clear(); }`: the loop's variables are counted from before its head (9836-9846), so `r`
passes for one that is bound again each time round. -/
theorem bound_in_head : Unsound (cfg 0 1 2)
    (.loop 1 2 (.bind 2 .skip) .skip (.seq (.read 2) (.write 1))) := by
  refine ⟨⟨_, rfl⟩, by decide, by decide, fun v => (False ∧ v ≠ 2) ∨ v ∈ (cfg 0 1 2).inv 1, ?_⟩
  refine .inl ⟨?_, by simp⟩
  refine .inr ⟨fun v => False ∧ v ≠ 2, .inr ⟨_, ⟨rfl, rfl⟩, ⟨rfl, rfl⟩⟩, ?_⟩
  refine .again ⟨rfl, rfl⟩ (.inr ⟨_, ⟨rfl, .inr ⟨rfl, by simp⟩⟩, ⟨rfl, rfl⟩⟩) ?_
  refine .out2 ⟨rfl, rfl⟩ (.inl ⟨⟨rfl, .inl ⟨rfl, rfl, .inr ?_⟩⟩, by simp⟩) (by simp) (by simp)
  simp [cfg]

/-! ### a function the theorem is about

`ref first = arr[0]; if (c) { arr.push(..); return; } loop { x; if (c) first++; else { ref r = arr[0]; r++; other.clear(); r2 } } arr.clear();` -/

def demo : Node :=
  .seq (.bind 2 .skip) (.cond .skip (.seq (.write 1) (.jump 0 .skip))
    (.seq (.loop 1 4 .skip .skip (.cond .skip (.read 2) (.seq (.bind 5 .skip) (.seq (.opt (.read 5)) (.write 3)))))
      (.seq (.read 2) (.write 1))))

example : Fine none [] [] (.block 0 demo) ∧ (labels (.block 0 demo)).Nodup ∧ (binds demo).Nodup ∧
    ∃ τ, check (cfg 0 1 2) [] 0 demo = .ok τ ∧ τ.inval.hit 2 = true := by
  refine ⟨?_, by decide, by decide, ⟨_, rfl, by decide⟩⟩
  simp [demo, Fine, after]

/-- and clearing the vector in its loop is refused, for the reads of the iterations to come -/
theorem next_iteration : check (cfg 0 1 2) [] 0
    (.seq (.bind 2 .skip) (.loop 1 4 .skip .skip (.cond .skip (.read 2) (.write 1)))) = .error .refused := rfl

/-- A `continue` of the outer loop in one branch does not hide from the other that the inner loop goes round again:
`loop { ref r = arr[0]; loop { r++; arr.clear(); if (c) continue outer; } }` is refused. -/
theorem inner_loop_wins : check (cfg 0 1 4) [] 0
    (.loop 1 3 .skip .skip (.block 9 (.seq (.bind 4 .skip)
      (.loop 2 5 .skip .skip (.seq (.read 4) (.seq (.write 1) (.cond .skip (.jump 9 .skip) .skip))))))) = .error .refused := rfl

end Verif.Bck
