import Verif.SpawnProps
/-! # C88: what the child of a `spawn` starts with -/
namespace Verif.Spawn

/-- A pipe as `spawn` makes it when the three standard descriptors of the parent are open: two descriptors above them for
`Pipe`, otherwise none. -/
def Usable (m : Mode) (p : Pipe) : Prop := if m = .pipe then 2 < p.r ∧ 2 < p.w else p = {}

/-- One stream: the actions connect it and remove the ends of its pipe, and touch nothing else. -/
theorem actionsIn_pipe (early : Bool) (t : Table) (p : Pipe) (f : File) (b : Bool) (hr : 2 < p.r) (hw : 2 < p.w)
    (hne : p.r ≠ p.w) (ht : t p.r = some (f, b)) (as : List Action) :
    ∃ t', runActions early t (actionsIn p ++ as) = runActions early t' as ∧ t' 0 = some (f, false) ∧ t' p.r = none ∧ t' p.w = none ∧
      ∀ n, n ≠ 0 → n ≠ p.r → n ≠ p.w → t' n = t n := by
  have e : actionsIn p = [.close p.w, .dup2 p.r 0, .close p.r] := by
    unfold actionsIn Pipe.isSome
    rw [if_pos (by simp; omega), if_pos (by omega), if_pos (by omega)]; rfl
  rw [e]
  refine ⟨((t.set p.w none).set 0 (some (f, false))).set p.r none, ?_, ?_, ?_, ?_, ?_⟩
  · have h1 : (t.set p.w none) p.r = some (f, b) := by simp [Table.set, hne, ht]
    simp [runActions, act, h1]
  · simp only [Table.set]; rw [if_neg (by omega)]; simp
  · simp [Table.set]
  · simp only [Table.set]; rw [if_neg (by omega), if_neg (by omega)]; simp
  · intro n h0 h1 h2
    simp [Table.set, h0, h1, h2]

@[inherit_doc actionsIn_pipe]
theorem actionsOut_pipe (early : Bool) (t : Table) (p : Pipe) (k : Nat) (hk : k ≤ 2) (f : File) (b : Bool) (hr : 2 < p.r) (hw : 2 < p.w)
    (hne : p.r ≠ p.w) (ht : t p.w = some (f, b)) (as : List Action) :
    ∃ t', runActions early t (actionsOut p k ++ as) = runActions early t' as ∧ t' k = some (f, false) ∧ t' p.r = none ∧ t' p.w = none ∧
      ∀ n, n ≠ k → n ≠ p.r → n ≠ p.w → t' n = t n := by
  have e : actionsOut p k = [.close p.r, .dup2 p.w k, .close p.w] := by
    unfold actionsOut Pipe.isSome
    rw [if_pos (by simp; omega), if_pos (by omega), if_pos (by omega)]; rfl
  rw [e]
  refine ⟨((t.set p.r none).set k (some (f, false))).set p.w none, ?_, ?_, ?_, ?_, ?_⟩
  · have h1 : (t.set p.r none) p.w = some (f, b) := by simp [Table.set, Ne.symm hne, ht]
    simp [runActions, act, h1]
  · simp only [Table.set]; rw [if_neg (by omega)]; simp
  · simp only [Table.set]; rw [if_neg (by omega), if_neg (by omega)]; simp
  · simp [Table.set]
  · intro n h0 h1 h2
    simp [Table.set, h0, h1, h2]

theorem actionsIn_none (early : Bool) (t : Table) (as : List Action) :
    runActions early t (actionsIn {} ++ as) = runActions early (t.set 0 (some (.devNull, early))) as := rfl

theorem actionsOut_none (early : Bool) (t : Table) (k : Nat) (as : List Action) :
    runActions early t (actionsOut {} k ++ as) = runActions early (t.set k (some (.devNull, early))) as := rfl

theorem actionsOut_parent (early : Bool) (t : Table) (k : Nat) (hk : k ≠ 0) (f : File) (b : Bool) (ht : t k = some (f, b))
    (as : List Action) :
    runActions early t (actionsOut ⟨0, k⟩ k ++ as) = runActions early (t.set k (some (f, false))) as := by
  have e : actionsOut ⟨0, k⟩ k = [.dup2 k k] := by
    unfold actionsOut Pipe.isSome
    rw [if_pos (by simp [hk]), if_neg (by simp), if_neg (by simp)]; rfl
  rw [e]
  simp [runActions, act, ht]

/-- What standard input is connected to. -/
def wantIn (early : Bool) (m : Mode) (p : Pipe) : File × Bool :=
  if m = .pipe then (.pipeEnd p.r, false) else (.devNull, early)

/-- What standard output or error is connected to. -/
def wantOut (early : Bool) (m : Mode) (p : Pipe) (k : Nat) : File × Bool :=
  match m with
  | .pipe => (.pipeEnd p.w, false)
  | .parent => (.parent k, false)
  | .ignore => (.devNull, early)

theorem stepIn (early : Bool) (t : Table) (m : Mode) (p : Pipe) (hu : Usable m p) (hn : (both m p).Nodup)
    (ht : ∀ n ∈ both m p, t n = some (.pipeEnd n, true)) (as : List Action) :
    ∃ t', runActions early t (actionsIn (if m = .parent then { p with r := 0 } else p) ++ as) = runActions early t' as ∧
      t' 0 = some (wantIn early m p) ∧ (∀ n ∈ both m p, t' n = none) ∧ ∀ n, n ≠ 0 → n ∉ both m p → t' n = t n := by
  unfold Usable at hu
  unfold both at hn ht ⊢
  unfold wantIn
  by_cases hm : m = .pipe
  · simp only [hm, if_true] at *
    have hne : p.r ≠ p.w := by
      intro hc; rw [hc] at hn; simp at hn
    obtain ⟨t', e, a, b, c, d⟩ := actionsIn_pipe early t p _ _ hu.1 hu.2 hne (ht p.r (by simp)) as
    refine ⟨t', by simpa using e, a, ?_, ?_⟩
    · intro n hm
      simp only [List.mem_cons, List.not_mem_nil, or_false] at hm
      rcases hm with rfl | rfl
      · exact b
      · exact c
    · intro n h0 hn
      simp only [List.mem_cons, List.not_mem_nil, or_false, not_or] at hn
      exact d n h0 hn.1 hn.2
  · simp only [hm, if_false] at *
    subst hu
    refine ⟨t.set 0 (some (.devNull, early)), ?_, by simp [Table.set], by simp, fun n h0 _ => by simp [Table.set, h0]⟩
    rw [← actionsIn_none]
    cases m <;> rfl

theorem stepOut (early : Bool) (t : Table) (m : Mode) (p : Pipe) (k : Nat) (hk : k ≤ 2) (hk0 : k ≠ 0) (hu : Usable m p) (hn : (both m p).Nodup)
    (ht : ∀ n ∈ both m p, t n = some (.pipeEnd n, true)) (hs : t k = some (.parent k, false)) (as : List Action) :
    ∃ t', runActions early t (actionsOut (if m = .parent then { p with w := k } else p) k ++ as) = runActions early t' as ∧
      t' k = some (wantOut early m p k) ∧ (∀ n ∈ both m p, t' n = none) ∧ ∀ n, n ≠ k → n ∉ both m p → t' n = t n := by
  unfold Usable at hu
  unfold both at hn ht ⊢
  unfold wantOut
  cases m with
  | pipe =>
    simp only [if_true] at *
    have hne : p.r ≠ p.w := by
      intro hc; rw [hc] at hn; simp at hn
    obtain ⟨t', e, a, b, c, d⟩ := actionsOut_pipe early t p k hk _ _ hu.1 hu.2 hne (ht p.w (by simp)) as
    refine ⟨t', by simpa using e, a, ?_, ?_⟩
    · intro n hm
      simp only [List.mem_cons, List.not_mem_nil, or_false] at hm
      rcases hm with rfl | rfl
      · exact b
      · exact c
    · intro n h0 hn
      simp only [List.mem_cons, List.not_mem_nil, or_false, not_or] at hn
      exact d n h0 hn.1 hn.2
  | parent =>
    have hu : p = {} := hu
    subst hu
    exact ⟨_, actionsOut_parent early t k hk0 _ _ hs as, by simp [Table.set], by simp, fun n h0 _ => by simp [Table.set, h0]⟩
  | ignore =>
    have hu : p = {} := hu
    subst hu
    exact ⟨_, actionsOut_none early t k as, by simp [Table.set], by simp, fun n h0 _ => by simp [Table.set, h0]⟩

theorem both_big {m : Mode} {p : Pipe} (hu : Usable m p) : ∀ n ∈ both m p, 2 < n := by
  unfold Usable at hu
  unfold both
  intro n hn
  by_cases hm : m = .pipe
  · rw [if_pos hm] at hu hn
    simp only [List.mem_cons, List.not_mem_nil, or_false] at hn
    rcases hn with rfl | rfl <;> omega
  · rw [if_neg hm] at hn; cases hn

theorem both_sub {m : Mode} {p : Pipe} : ∀ n ∈ both m p, n = p.r ∨ n = p.w := by
  unfold both
  intro n hn
  by_cases hm : m = .pipe
  · rw [if_pos hm] at hn; simpa using hn
  · rw [if_neg hm] at hn; cases hn

/-- The child's table, in full. -/
theorem child_table (early : Bool) (outM errM inM : Mode) (out err inp : Pipe) (rest : Table) (u1 : Usable outM out)
    (u2 : Usable errM err) (u3 : Usable inM inp) (hn : (both inM inp ++ (both outM out ++ both errM err)).Nodup) :
    ∃ t : Table, childTable early outM errM inM out err inp rest = some (exec t) ∧ t 0 = some (wantIn early inM inp) ∧
      t 1 = some (wantOut early outM out 1) ∧ t 2 = some (wantOut early errM err 2) ∧
      (∀ n ∈ both inM inp ++ (both outM out ++ both errM err), t n = none) ∧
      (∀ n, 2 < n → n ∉ [out.r, out.w, err.r, err.w, inp.r, inp.w] → t n = rest n) := by
  obtain ⟨n1, n23, d1⟩ := List.nodup_append.1 hn
  obtain ⟨n2, n3, d2⟩ := List.nodup_append.1 n23
  have pt : ∀ {m : Mode} {p : Pipe}, Usable m p → (∀ n ∈ [p.r, p.w], n ∈ [out.r, out.w, err.r, err.w, inp.r, inp.w]) →
      ∀ n ∈ both m p, parentTable [out.r, out.w, err.r, err.w, inp.r, inp.w] rest n = some (.pipeEnd n, true) := by
    intro m p hu hs n hm
    have := both_big hu n hm
    unfold parentTable
    rw [if_neg (by omega), if_pos (hs n (by simpa using both_sub n hm))]
  have ps : ∀ n, n ≤ 2 → parentTable [out.r, out.w, err.r, err.w, inp.r, inp.w] rest n = some (.parent n, false) := by
    intro n hn; unfold parentTable; rw [if_pos hn]
  have pr : ∀ n, 2 < n → n ∉ [out.r, out.w, err.r, err.w, inp.r, inp.w] →
      parentTable [out.r, out.w, err.r, err.w, inp.r, inp.w] rest n = rest n := by
    intro n h2 hm; unfold parentTable; rw [if_neg (by omega), if_neg hm]
  unfold childTable actions
  generalize parentTable [out.r, out.w, err.r, err.w, inp.r, inp.w] rest = t0 at pt ps pr
  obtain ⟨t1, e1, a1, b1, c1⟩ := stepIn early t0 inM inp u3 n1 (pt u3 (by simp)) (actionsOut (if outM = .parent then { out with w := 1 } else out) 1 ++
    (actionsOut (if errM = .parent then { err with w := 2 } else err) 2 ++ []))
  have g1 : ∀ n ∈ both outM out, t1 n = some (.pipeEnd n, true) := by
    intro n hm
    have := both_big u1 n hm
    rw [c1 n (by omega) (fun hc => d1 n hc n (by simp [hm]) rfl)]
    exact pt u1 (by simp) n hm
  have g2 : ∀ n ∈ both errM err, t1 n = some (.pipeEnd n, true) := by
    intro n hm
    have := both_big u2 n hm
    rw [c1 n (by omega) (fun hc => d1 n hc n (by simp [hm]) rfl)]
    exact pt u2 (by simp) n hm
  have s1 : ∀ k, k ≠ 0 → k ≤ 2 → t1 k = some (.parent k, false) := by
    intro k h0 h2
    rw [c1 k h0 (fun hc => by have := both_big u3 k hc; omega)]
    exact ps k h2
  obtain ⟨t2, e2, a2, b2, c2⟩ := stepOut early t1 outM out 1 (by omega) (by omega) u1 n2 g1 (s1 1 (by omega) (by omega))
    (actionsOut (if errM = .parent then { err with w := 2 } else err) 2 ++ [])
  have g3 : ∀ n ∈ both errM err, t2 n = some (.pipeEnd n, true) := by
    intro n hm
    have := both_big u2 n hm
    rw [c2 n (by omega) (fun hc => d2 n hc n hm rfl)]
    exact g2 n hm
  obtain ⟨t3, e3, a3, b3, c3⟩ := stepOut early t2 errM err 2 (by omega) (by omega) u2 n3 g3 (by
    rw [c2 2 (by omega) (fun hc => by have := both_big u1 2 hc; omega)]
    exact s1 2 (by omega) (by omega)) []
  refine ⟨t3, ?_, ?_, ?_, a3, ?_, ?_⟩
  · rw [List.append_assoc]
    rw [List.append_nil] at e1 e2 e3
    rw [e1, e2, e3]; rfl
  · rw [c3 0 (by omega) (fun hc => by have := both_big u2 0 hc; omega),
      c2 0 (by omega) (fun hc => by have := both_big u1 0 hc; omega)]
    exact a1
  · rw [c3 1 (by omega) (fun hc => by have := both_big u2 1 hc; omega)]
    exact a2
  · intro n hm
    by_cases h3 : n ∈ both errM err
    · exact b3 n h3
    have big : 2 < n := by
      rcases List.mem_append.1 hm with h | h
      · exact both_big u3 n h
      · rcases List.mem_append.1 h with h | h
        · exact both_big u1 n h
        · exact both_big u2 n h
    rw [c3 n (by omega) h3]
    by_cases h2 : n ∈ both outM out
    · exact b2 n h2
    rw [c2 n (by omega) h2]
    rcases List.mem_append.1 hm with h | h
    · exact b1 n h
    · rcases List.mem_append.1 h with h | h
      · exact absurd h h2
      · exact absurd h h3
  · intro n h2 hm
    have nb : ∀ {m : Mode} {p : Pipe}, (∀ n ∈ [p.r, p.w], n ∈ [out.r, out.w, err.r, err.w, inp.r, inp.w]) → n ∉ both m p :=
      fun hs hc => hm (hs n (by simpa using both_sub n hc))
    rw [c3 n (by omega) (nb (by simp)), c2 n (by omega) (nb (by simp)), c1 n (by omega) (nb (by simp))]
    exact pr n h2 hm

/-! ## Theorems -/

/-- **C88** (partial: `Ignore` is right only with a C library that opens before it closes, `early = false`; standard input is
never the parent's, see `parent_stdin_lost`). The child starts with the pipe ends it should have: it reads the pipe of its
standard input, writes the pipes of its standard output and error, or has the parent's, or `/dev/null`; and it has no
other end of any of these pipes, so that its parent sees their ends when the child closes them. -/
theorem child_streams_partial (outM errM inM : Mode) (out err inp : Pipe) (rest : Table) (u1 : Usable outM out)
    (u2 : Usable errM err) (u3 : Usable inM inp) (hn : (both inM inp ++ (both outM out ++ both errM err)).Nodup)
    (hp : inM ≠ .parent) :
    ∃ t, childTable false outM errM inM out err inp rest = some t ∧
      t 0 = some (if inM = .pipe then .pipeEnd inp.r else .devNull) ∧
      t 1 = some (if outM = .pipe then .pipeEnd out.w else if outM = .parent then .parent 1 else .devNull) ∧
      t 2 = some (if errM = .pipe then .pipeEnd err.w else if errM = .parent then .parent 2 else .devNull) ∧
      ∀ n ∈ both inM inp ++ (both outM out ++ both errM err), t n = none := by
  obtain ⟨t, e, a, b, c, d, _⟩ := child_table false outM errM inM out err inp rest u1 u2 u3 hn
  refine ⟨exec t, e, ?_, ?_, ?_, ?_⟩
  · unfold exec; rw [a]; cases inM <;> simp_all [wantIn]
  · unfold exec; rw [b]; cases outM <;> rfl
  · unfold exec; rw [c]; cases errM <;> rfl
  · intro n hm; unfold exec; rw [d n hm]

/-- **C88** (a fault of the code) Standard input can't be the parent's: asked for `Parent` the child gets `/dev/null`, or
nothing, because descriptor 0 counts as none. -/
theorem parent_stdin_lost (early : Bool) (outM errM : Mode) (out err : Pipe) (rest : Table) (u1 : Usable outM out)
    (u2 : Usable errM err) (hn : (both outM out ++ both errM err).Nodup) :
    ∃ t, childTable early outM errM .parent out err {} rest = some t ∧ t 0 = if early then none else some .devNull := by
  obtain ⟨t, e, a, _⟩ := child_table early outM errM .parent out err {} rest u1 u2 rfl (by simpa [both] using hn)
  refine ⟨exec t, e, ?_⟩
  unfold exec; rw [a]; cases early <;> rfl

/-- **C88** (a fault of the code) With glibc an ignored stream is not connected to `/dev/null` but closed, because it is
opened close-on-exec: the next file the child opens becomes its standard output. -/
theorem ignored_streams_closed (outM errM inM : Mode) (out err inp : Pipe) (rest : Table) (u1 : Usable outM out)
    (u2 : Usable errM err) (u3 : Usable inM inp) (hn : (both inM inp ++ (both outM out ++ both errM err)).Nodup) :
    ∃ t, childTable true outM errM inM out err inp rest = some t ∧ (inM = .ignore → t 0 = none) ∧
      (outM = .ignore → t 1 = none) ∧ (errM = .ignore → t 2 = none) := by
  obtain ⟨t, e, a, b, c, _⟩ := child_table true outM errM inM out err inp rest u1 u2 u3 hn
  refine ⟨exec t, e, ?_, ?_, ?_⟩
  · intro h; unfold exec; rw [a, h]; rfl
  · intro h; unfold exec; rw [b, h]; rfl
  · intro h; unfold exec; rw [c, h]; rfl

/-- The hypotheses are met: output on a pipe, errors to the parent's, input from a pipe. -/
example : Usable .pipe ⟨3, 4⟩ ∧ Usable .parent {} ∧ Usable .pipe ⟨5, 6⟩ ∧
    (both .pipe ⟨5, 6⟩ ++ (both .pipe ⟨3, 4⟩ ++ both .parent {})).Nodup :=
  ⟨⟨by decide, by decide⟩, rfl, ⟨by decide, by decide⟩, by decide⟩

/-- A run of `spawn` with two pipes. -/
example : spawn ⟨[0, 1, 2], []⟩ .pipe .ignore .pipe ⟨.ok (3, 4), .error 0, .ok (5, 6), .ok 77⟩ =
    .ok (⟨[6, 3, 0, 1, 2], [.create 3, .create 4, .create 5, .create 6, .close 4, .close 5]⟩, 0, ⟨77, 6, 3, 0⟩) := by decide

/-- **C88** (a fault of the code) In a process whose standard input is closed, the read end of the first pipe is descriptor
0, which counts as none: the child's output is not captured and the descriptor is lost. -/
theorem closed_stdin_leaks : spawn ⟨[1, 2], []⟩ .pipe .ignore .ignore ⟨.ok (0, 3), .error 0, .error 0, .ok 77⟩ =
    .ok (⟨[0, 1, 2], [.create 0, .create 3, .close 3]⟩, 0, ⟨77, 0, 0, 0⟩) := by decide

end Verif.Spawn
