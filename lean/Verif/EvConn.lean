import Verif.EvProps
/-!
# C87: readiness, wake-ups and the end of a connection

One connection, seen from its handler: a list of turns, each an event reported by the kernel and what the handler did.
-/
namespace Verif.Ev

/-! ## Specification -/

/-- One event of a connection: what the kernel reported, and what the handler does if it is called. -/
structure Turn where
  ev : Ep
  ops : List SockOp

/-- The facts about a connection: is there input the handler was told of and has not read, is there room it was told of
and has not filled, has the peer (or the handler) ended the input, the output. -/
structure Facts where
  unread : Bool
  room : Bool
  inEnd : Bool
  outEnd : Bool
deriving DecidableEq, Repr

/-- Does a call ask for input? -/
def SockOp.reads : SockOp → Bool
  | .read .. => true
  | _ => false
/-- Does a call find the end of the input? -/
def SockOp.endsIn : SockOp → Bool
  | .read e n => e == 0 && n == 0
  | .close => true
  | _ => false
/-- Does a call end the output? -/
def SockOp.endsOut : SockOp → Bool
  | .close => true
  | _ => false
/-- Is a call a write that leaves something over (and no error)? -/
def SockOp.leaves : SockOp → Bool
  | .write len e n => (e == 0 || e == EAGAIN) && decide (n < len)
  | _ => false
/-- The error of a call, 0 for none; "try again later" is none. -/
def SockOp.error : SockOp → Errno
  | .read e _ => if e = EAGAIN then 0 else e
  | .write _ e _ => if e = EAGAIN then 0 else e
  | _ => 0

/-- The facts once an event has been reported. -/
def Facts.report (f : Facts) (ev : Ep) : Facts :=
  ⟨f.unread || ev.inn, f.room || ev.out, f.inEnd || ev.rdhup || ev.hup, f.outEnd || ev.hup⟩

/-- The handler is called when there is something it can do. -/
def Facts.calls (f : Facts) : Bool := f.unread || f.room

/-- What the handler does; nothing when it is not called. -/
def Turn.done (f : Facts) (t : Turn) : List SockOp := if (f.report t.ev).calls then t.ops else []

/-- The facts after a turn: what has been read is no longer unread (but the end of the input remains to be seen), and a
write that leaves something over has used up the room. -/
def Facts.turn (f : Facts) (t : Turn) : Facts :=
  let g := f.report t.ev
  let ops := t.done f
  let inEnd := g.inEnd || ops.any (·.endsIn)
  let outEnd := g.outEnd || ops.any (·.endsOut)
  ⟨g.unread && (inEnd || !ops.any (·.reads)), g.room && (outEnd || !ops.any (·.leaves)), inEnd, outEnd⟩

/-- The first error of a turn. -/
def Turn.error (f : Facts) (t : Turn) : Errno :=
  (t.done f).foldl (fun e o => if e = 0 then o.error else e) (if t.ev.err then EPIPE else 0)

/-- When a connection ends: on an error; when the input has ended and the handler neither has output left over nor
promises some, or the output has ended too; when the input has not ended and the handler neither reads what there is nor
promises to. -/
def Ended (f : Facts) (t : Turn) : Prop :=
  t.error f ≠ 0 ∨
  ((f.turn t).inEnd = true ∧ ((f.turn t).outEnd = true ∨
    ¬ ∃ o ∈ t.done f, o.leaves = true ∨ o = .willWriteLater)) ∨
  ((f.turn t).inEnd = false ∧ (f.report t.ev).unread = true ∧ ¬ ∃ o ∈ t.done f, o.reads = true ∨ o = .willReadLater)

/-! ## The code -/

/-- The sticky bits of a socket, read as facts. -/
def factsOf (st : SS) : Facts := ⟨st.readable, st.writeable, st.readEOF, st.writeEOF⟩

/-- `state` and `event_ERR` after the handler, for a socket with sticky bits `k`. -/
def afterTurn (k : SS) (t : Turn) : SS × Errno := serve ((evState t.ev).or k) (evErr t.ev) t.ops

/-- Only the four sticky bits are kept between events. -/
def Sticky (k : SS) : Prop := k.wantsRead = false ∧ k.wantsWrite = false ∧ k.willRead = false ∧ k.willWrite = false

/-! ## Proofs -/

/-- What one call does to the state, if there is no error. -/
def bump (st : SS) (inE outE r l wr ww : Bool) : SS :=
  { st with
    readEOF := st.readEOF || inE
    writeEOF := st.writeEOF || outE
    wantsRead := st.wantsRead || r
    wantsWrite := st.wantsWrite || l
    willRead := st.willRead || wr
    willWrite := st.willWrite || ww }

theorem bump_none (st : SS) : bump st false false false false false false = st := by
  obtain ⟨a, b, c, d, e, f, g, h⟩ := st
  simp [bump]

theorem op_state (st : SS) (e : Errno) (o : SockOp) (h : (sockOp (st, e) o).2 = 0) :
    e = 0 ∧ (sockOp (st, e) o).1 = bump st o.endsIn o.endsOut o.reads o.leaves (o == .willReadLater) (o == .willWriteLater) := by
  cases o with
  | read err n =>
    simp only [sockOp] at h ⊢
    by_cases c : err = 0
    · subst c
      by_cases c2 : n = 0
      · subst c2
        simp at h
        simp [h, bump, SockOp.endsIn, SockOp.endsOut, SockOp.reads, SockOp.leaves]
      · simp [c2] at h
        simp [h, bump, c2, SockOp.endsIn, SockOp.endsOut, SockOp.reads, SockOp.leaves]
    · rw [if_pos c] at h ⊢
      dsimp only at h ⊢
      have he : e = 0 := by
        split at h
        · exact absurd h c
        · exact h
      simp [he, bump, c, SockOp.endsIn, SockOp.endsOut, SockOp.reads, SockOp.leaves]
  | write len err n =>
    simp only [sockOp] at h ⊢
    by_cases c : err = EAGAIN
    · subst c
      simp only [if_true, ne_eq, not_true, false_and, if_false] at h ⊢
      have he : e = 0 := by
        split at h
        · exact h
        · exact h
      subst he
      by_cases hn : n < len
      · simp [hn, bump, SockOp.endsIn, SockOp.endsOut, SockOp.reads, SockOp.leaves]
      · obtain ⟨a1, a2, a3, a4, a5, a6, a7, a8⟩ := st
        simp [hn, bump, SockOp.endsIn, SockOp.endsOut, SockOp.reads, SockOp.leaves]
    · rw [if_neg c] at h ⊢
      by_cases c0 : err = 0
      · subst c0
        simp only [ne_eq, not_true, false_and, if_false] at h ⊢
        have he : e = 0 := by
          split at h
          · exact h
          · exact h
        subst he
        by_cases hn : n < len
        · simp [hn, bump, SockOp.endsIn, SockOp.endsOut, SockOp.reads, SockOp.leaves]
        · obtain ⟨a1, a2, a3, a4, a5, a6, a7, a8⟩ := st
          simp [hn, bump, SockOp.endsIn, SockOp.endsOut, SockOp.reads, SockOp.leaves]
      · exfalso
        by_cases he : e = 0
        · simp [c0, he] at h
        · simp [he] at h
  | close => exact ⟨h, by simp [sockOp, bump, SockOp.endsIn, SockOp.endsOut, SockOp.reads, SockOp.leaves]⟩
  | willReadLater => exact ⟨h, by simp [sockOp, bump, SockOp.endsIn, SockOp.endsOut, SockOp.reads, SockOp.leaves]⟩
  | willWriteLater => exact ⟨h, by simp [sockOp, bump, SockOp.endsIn, SockOp.endsOut, SockOp.reads, SockOp.leaves]⟩

theorem bump_bump (st : SS) (a b c d e f a' b' c' d' e' f' : Bool) :
    bump (bump st a b c d e f) a' b' c' d' e' f' = bump st (a || a') (b || b') (c || c') (d || d') (e || e') (f || f') := by
  simp [bump, Bool.or_assoc]

theorem ops_state (ops : List SockOp) (p : SS × Errno) : (ops.foldl sockOp p).2 = 0 →
    p.2 = 0 ∧ (ops.foldl sockOp p).1 =
      bump p.1 (ops.any (·.endsIn)) (ops.any (·.endsOut)) (ops.any (·.reads)) (ops.any (·.leaves))
        (ops.any (· == .willReadLater)) (ops.any (· == .willWriteLater)) := by
  induction ops generalizing p with
  | nil => intro h; exact ⟨h, (bump_none _).symm⟩
  | cons o ops ih =>
    intro h
    rw [List.foldl_cons] at h ⊢
    obtain ⟨h1, h2⟩ := ih (sockOp p o) h
    obtain ⟨h3, h4⟩ := op_state p.1 p.2 o h1
    refine ⟨h3, ?_⟩
    rw [h2, show sockOp p o = sockOp (p.1, p.2) o from rfl, h4, bump_bump]
    simp only [List.any_cons]

theorem ops_error (ops : List SockOp) (st : SS) (e : Errno) :
    (ops.foldl sockOp (st, e)).2 = ops.foldl (fun e o => if e = 0 then o.error else e) e := by
  induction ops generalizing st e with
  | nil => rfl
  | cons o ops ih =>
    rw [List.foldl_cons, List.foldl_cons, show sockOp (st, e) o = ((sockOp (st, e) o).1, (sockOp (st, e) o).2) from rfl, ih]
    congr 1
    cases o with
    | read err n =>
      simp only [sockOp, SockOp.error]
      by_cases c : err = 0
      · subst c
        by_cases c2 : n = 0 <;> by_cases c3 : e = 0 <;> simp [c2, c3]
      · rw [if_pos c]
        by_cases c2 : err = EAGAIN <;> by_cases c3 : e = 0 <;> simp [c2, c3]
    | write len err n =>
      simp only [sockOp, SockOp.error]
      by_cases c2 : err = EAGAIN
      · by_cases c3 : e = 0 <;> simp [c2, c3] <;> split <;> rfl
      · by_cases c : err = 0
        · subst c
          by_cases c3 : e = 0 <;> simp [c3] <;> split <;> rfl
        · by_cases c3 : e = 0 <;> simp [c, c2, c3] <;> split <;> rfl
    | close => simp [sockOp, SockOp.error]
    | willReadLater => simp [sockOp, SockOp.error]
    | willWriteLater => simp [sockOp, SockOp.error]

theorem report_or (k : SS) (ev : Ep) : factsOf ((evState ev).or k) = (factsOf k).report ev := by
  obtain ⟨a, b, c, d, e, f, g, h⟩ := k
  obtain ⟨i, o, r, hu, er⟩ := ev
  cases a <;> cases b <;> cases c <;> cases d <;> cases i <;> cases o <;> cases r <;> cases hu <;> rfl

theorem calls_or (k : SS) (ev : Ep) :
    (((evState ev).or k).readable || ((evState ev).or k).writeable) = ((factsOf k).report ev).calls := by
  rw [← report_or]; rfl

theorem afterTurn_error (k : SS) (t : Turn) : (afterTurn k t).2 = t.error (factsOf k) := by
  unfold afterTurn serve Turn.error Turn.done
  rw [calls_or]
  split
  · rw [ops_error]; rfl
  · rfl

/-- `state` after the handler, when there was no error. -/
theorem afterTurn_state (k : SS) (t : Turn) (hk : Sticky k) (h : t.error (factsOf k) = 0) :
    (afterTurn k t).1 =
      { readable := ((factsOf k).report t.ev).unread
        writeable := ((factsOf k).report t.ev).room
        readEOF := ((factsOf k).turn t).inEnd
        writeEOF := ((factsOf k).turn t).outEnd
        wantsRead := (t.done (factsOf k)).any (·.reads)
        wantsWrite := (t.done (factsOf k)).any (·.leaves)
        willRead := (t.done (factsOf k)).any (· == .willReadLater)
        willWrite := (t.done (factsOf k)).any (· == .willWriteLater) } := by
  rw [← afterTurn_error] at h
  have e : (afterTurn k t) = (t.done (factsOf k)).foldl sockOp ((evState t.ev).or k, evErr t.ev) := by
    unfold afterTurn serve Turn.done
    rw [calls_or]
    split <;> rfl
  rw [e] at h ⊢
  obtain ⟨_, h2⟩ := ops_state _ _ h
  rw [h2]
  unfold bump
  dsimp only
  have hr := report_or k t.ev
  have h1 : ((evState t.ev).or k).readable = ((factsOf k).report t.ev).unread := congrArg Facts.unread hr
  have h3 : ((evState t.ev).or k).writeable = ((factsOf k).report t.ev).room := congrArg Facts.room hr
  have h4 : ((evState t.ev).or k).readEOF = ((factsOf k).report t.ev).inEnd := congrArg Facts.inEnd hr
  have h5 : ((evState t.ev).or k).writeEOF = ((factsOf k).report t.ev).outEnd := congrArg Facts.outEnd hr
  have w1 : ((evState t.ev).or k).wantsRead = false := by simp [SS.or, evState, hk.1]
  have w2 : ((evState t.ev).or k).wantsWrite = false := by simp [SS.or, evState, hk.2.1]
  have w3 : ((evState t.ev).or k).willRead = false := by simp [SS.or, evState, hk.2.2.1]
  have w4 : ((evState t.ev).or k).willWrite = false := by simp [SS.or, evState, hk.2.2.2]
  rw [h1, h3, h4, h5, w1, w2, w3, w4]
  simp [Facts.turn]

theorem newState_sticky (st : SS) : Sticky (newState st) := ⟨rfl, rfl, rfl, rfl⟩

/-! ## Theorems about one turn -/

/-- **C87** The handler is called exactly when there is input it has not read or room it has not filled, and is told so:
`readable` and `writeable` are these facts. -/
theorem told_facts (k : SS) (ev : Ep) :
    ((evState ev).or k).readable = ((factsOf k).report ev).unread ∧
    ((evState ev).or k).writeable = ((factsOf k).report ev).room :=
  ⟨congrArg Facts.unread (report_or k ev), congrArg Facts.room (report_or k ev)⟩

/-- **C87** What the loop remembers of a connection that goes on is the facts. -/
theorem remembers_facts (k : SS) (t : Turn) (hk : Sticky k) (h : t.error (factsOf k) = 0) :
    factsOf (newState (afterTurn k t).1) = (factsOf k).turn t := by
  rw [afterTurn_state k t hk h]
  have key (a c r : Bool) : (!(!c && (r || !a)) && a) = (a && (c || !r)) := by cases a <;> cases c <;> cases r <;> rfl
  show Facts.mk _ _ _ _ = Facts.mk _ _ _ _
  congr 1
  · exact key _ _ _
  · exact key _ _ _

/-- **C87** A connection that goes on is armed for input exactly when the input has not ended and nothing is unread, and
for room exactly when the output has not ended and no room is left: no wake-up is lost and none is wasted. -/
theorem armed_iff (k : SS) (t : Turn) (hk : Sticky k) (h : t.error (factsOf k) = 0) :
    wakeRecv (afterTurn k t).1 = (!((factsOf k).turn t).inEnd && !((factsOf k).turn t).unread) ∧
    wakeWrite (afterTurn k t).1 = (!((factsOf k).turn t).outEnd && !((factsOf k).turn t).room) := by
  rw [← remembers_facts k t hk h]
  generalize (afterTurn k t).1 = st
  obtain ⟨a, b, c, d, e, f, g, i⟩ := st
  cases a <;> cases b <;> cases c <;> cases d <;> cases e <;> cases f <;> exact ⟨rfl, rfl⟩

/-- **C87** A connection is closed exactly when the specification says. -/
theorem closes_iff (k : SS) (t : Turn) (hk : Sticky k) :
    (mustClose (afterTurn k t).1 = true ∨ (afterTurn k t).2 ≠ 0) ↔ Ended (factsOf k) t := by
  rw [afterTurn_error]
  unfold Ended
  by_cases he : t.error (factsOf k) = 0
  · rw [afterTurn_state k t hk he]
    have ex1 : (∃ o ∈ t.done (factsOf k), o.leaves = true ∨ o = .willWriteLater) ↔
        ((t.done (factsOf k)).any (·.leaves) || (t.done (factsOf k)).any (· == .willWriteLater)) = true := by
      rw [Bool.or_eq_true, List.any_eq_true, List.any_eq_true]
      constructor
      · rintro ⟨o, ho, h | h⟩
        · exact .inl ⟨o, ho, h⟩
        · exact .inr ⟨o, ho, by rw [h]; rfl⟩
      · rintro (⟨o, ho, h⟩ | ⟨o, ho, h⟩)
        · exact ⟨o, ho, .inl h⟩
        · exact ⟨o, ho, .inr (by simpa using h)⟩
    have ex2 : (∃ o ∈ t.done (factsOf k), o.reads = true ∨ o = .willReadLater) ↔
        ((t.done (factsOf k)).any (·.reads) || (t.done (factsOf k)).any (· == .willReadLater)) = true := by
      rw [Bool.or_eq_true, List.any_eq_true, List.any_eq_true]
      constructor
      · rintro ⟨o, ho, h | h⟩
        · exact .inl ⟨o, ho, h⟩
        · exact .inr ⟨o, ho, by rw [h]; rfl⟩
      · rintro (⟨o, ho, h⟩ | ⟨o, ho, h⟩)
        · exact ⟨o, ho, .inl h⟩
        · exact ⟨o, ho, .inr (by simpa using h)⟩
    rw [ex1, ex2]
    unfold mustClose
    dsimp only
    generalize ((t.done (factsOf k)).any (·.leaves)) = l
    generalize ((t.done (factsOf k)).any (·.reads)) = r
    generalize ((t.done (factsOf k)).any (· == .willReadLater)) = wr
    generalize ((t.done (factsOf k)).any (· == .willWriteLater)) = ww
    generalize ((factsOf k).report t.ev).unread = u
    cases ((factsOf k).turn t).inEnd <;> cases ((factsOf k).turn t).outEnd <;> cases u <;> cases l <;> cases r <;>
      cases wr <;> cases ww <;> simp [he]
  · simp [he]

/-! ## Corollaries -/

/-- **C87** A connection stays open as long as there is no error, the peer does not end it, and the handler does not close
it and reads, or promises to read, whenever it is told that there is input. Partial: once the peer has ended its side the
connection is lost although output is left over, see `half_close_truncates`. -/
theorem stays_open_partial (k : SS) (t : Turn) (hk : Sticky k) (he : t.error (factsOf k) = 0) (h0 : k.readEOF = false)
    (hev : t.ev.rdhup = false ∧ t.ev.hup = false) (hops : ∀ o ∈ t.ops, o.endsIn = false)
    (hread : ((factsOf k).report t.ev).unread = true → ∃ o ∈ t.ops, o.reads = true ∨ o = .willReadLater) :
    ¬ (mustClose (afterTurn k t).1 = true ∨ (afterTurn k t).2 ≠ 0) := by
  rw [closes_iff k t hk]
  have hin : ((factsOf k).turn t).inEnd = false := by
    simp only [Facts.turn, Facts.report, factsOf, h0, hev.1, hev.2, Bool.or_false, Bool.false_or]
    rw [List.any_eq_false]
    intro o ho
    unfold Turn.done at ho
    split at ho
    · simp [hops o ho]
    · cases ho
  rintro (h | h | h)
  · exact h he
  · rw [hin] at h; cases h.1
  · apply h.2.2
    obtain ⟨o, ho, hr⟩ := hread h.2.1
    refine ⟨o, ?_, hr⟩
    unfold Turn.done
    rw [if_pos (by simp [Facts.calls, h.2.1])]
    exact ho

/-- **C87** (a fault of the code) `close()` discards: whatever output was left over, the connection is closed within the
same turn. `lib/ev/HTTP.fu` 349 relies on the opposite ("Will close after writes complete"). -/
theorem close_discards (k : SS) (t : Turn) (hk : Sticky k) (hc : ((factsOf k).report t.ev).calls = true)
    (hm : SockOp.close ∈ t.ops) : mustClose (afterTurn k t).1 = true ∨ (afterTurn k t).2 ≠ 0 := by
  rw [closes_iff k t hk]
  have hd : t.done (factsOf k) = t.ops := by unfold Turn.done; rw [if_pos hc]
  right; left
  have hi : t.ops.any (·.endsIn) = true := List.any_eq_true.2 ⟨.close, hm, rfl⟩
  have ho : t.ops.any (·.endsOut) = true := List.any_eq_true.2 ⟨.close, hm, rfl⟩
  refine ⟨?_, .inl ?_⟩
  · simp only [Facts.turn]; rw [hd, hi]; simp
  · simp only [Facts.turn]; rw [hd, ho]; simp

/-- **C87** (a fault of the code) Once the peer has ended its input, a handler that writes only when it is told that there
is room, as `lib/ev/HTTP.fu` does, loses its connection at the next event that brings no room, with all output left
over. That event comes at once: the peer's end is always asked for and is reported as long as it lasts. -/
theorem half_close_truncates (k : SS) (t : Turn) (hk : Sticky k) (h0 : k.readEOF = true)
    (hops : ∀ o ∈ t.ops, o.leaves = false ∧ o ≠ .willWriteLater) :
    mustClose (afterTurn k t).1 = true ∨ (afterTurn k t).2 ≠ 0 := by
  rw [closes_iff k t hk]
  right; left
  refine ⟨by simp [Facts.turn, Facts.report, factsOf, h0], .inr ?_⟩
  rintro ⟨o, ho, h⟩
  have : o ∈ t.ops := by
    unfold Turn.done at ho
    split at ho
    · exact ho
    · cases ho
  rcases h with h | h
  · rw [(hops o this).1] at h; cases h
  · exact (hops o this).2 h

/-- A client sends a request and ends its input; the answer goes out in part (20 of 50 bytes); the next event is the
peer's end again: the connection is closed, without error, and 30 bytes are never sent. -/
def halfClose : List (Nat × Ep × Choice) :=
  [(5, { inn := true }, ⟨.ok 6, 99, [], [], 0, []⟩),
   (6, { inn := true, rdhup := true }, ⟨.error 0, 0, [.read 0 100, .write 50 0 20], [], 0, []⟩),
   (6, { rdhup := true }, ⟨.error 0, 0, [.read 0 0], [], 0, []⟩)]

/-- **C87** (a fault of the code) -/
theorem half_close_run : (match demoStart with | .ok s => (play s halfClose).map (·.trace) | _ => none) =
    some [.userOpen 0, .userOpen 1, .userOpen 2, .create 3, .create 4, .create 5, .create 6, .accepted 6 99,
      .event 6 99 true true, .event 6 99 true false, .close 6, .closed 6 99 0] := by decide +kernel

end Verif.Ev
