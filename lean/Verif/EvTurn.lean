import Verif.EvConn
/-! # C87: what the loop does with an event of a connection, exactly -/
namespace Verif.Ev

/-- Is an observation a callback? -/
def Obs.callback : Obs → Bool
  | .accepted .. => true
  | .event .. => true
  | .closed .. => true
  | .failed .. => true
  | .watched .. => true
  | _ => false

/-- The callbacks in a trace. -/
def callbacks (t : List Obs) : List Obs := t.filter (·.callback)

theorem callbacks_append (t u : List Obs) : callbacks (t ++ u) = callbacks t ++ callbacks u := List.filter_append ..

theorem close_callbacks {s s' : St} {fd : Int} (h : close s fd = .ok s') : callbacks s'.trace = callbacks s.trace := by
  unfold close at h
  split at h
  · injection h with h
    subst h
    show callbacks (s.trace ++ [.close fd.toNat]) = _
    rw [callbacks_append]
    simp [callbacks, Obs.callback]
  · cases h

theorem create_callbacks (s : St) (fd : Nat) : callbacks (s.create fd).trace = callbacks s.trace := by
  show callbacks (s.trace ++ [.create fd]) = _
  rw [callbacks_append]
  simp [callbacks, Obs.callback]

theorem ctl_trace (s : St) (fd : Nat) (r : Reg) (e : Errno) : (ctl s fd r e).trace = s.trace := by
  unfold ctl; split <;> rfl

theorem act_callbacks {s s' : St} {a : Act} (h : act s a = .ok s') : callbacks s'.trace = callbacks s.trace := by
  cases a with
  | openOwn fd =>
    rw [act] at h
    split at h
    · injection h with h
      subst h
      rw [callbacks_append]
      simp [callbacks, Obs.callback]
    · injection h with h; rw [h]
  | closeOwn fd =>
    rw [act] at h
    split at h
    · injection h with h
      subst h
      rw [callbacks_append]
      simp [callbacks, Obs.callback]
    · injection h with h; rw [h]
  | listen w sock b c =>
    rw [act, listen] at h
    split at h
    · exact close_callbacks h
    · rename_i fd _
      rw [listenWith] at h
      split at h
      · rw [close_callbacks h, create_callbacks]
      · split at h
        · cases h
        · dsimp only at h
          split at h
          · rw [close_callbacks h, ctl_trace, create_callbacks]
          · injection h with h
            subst h
            show callbacks (ctl _ _ _ _).trace = _
            rw [ctl_trace, create_callbacks]
  | watch i a c =>
    rw [act, watch] at h
    split at h
    · injection h with h; rw [h]
    · dsimp only at h
      split at h
      · cases h
      · split at h
        · rw [close_callbacks h, create_callbacks]
        · split at h
          · rw [close_callbacks h, ctl_trace, create_callbacks]
          · injection h with h
            subst h
            show callbacks (ctl _ _ _ _).trace = _
            rw [ctl_trace, create_callbacks]

theorem acts_callbacks {as : List Act} : ∀ {s s' : St}, acts s as = .ok s' → callbacks s'.trace = callbacks s.trace := by
  induction as with
  | nil => intro s s' h; injection h with h; rw [h]
  | cons a as ih =>
    intro s s' h
    rw [acts] at h
    cases e : act s a with
    | fault f => rw [e] at h; cases h
    | ok s1 =>
      rw [e] at h
      rw [ih h, act_callbacks e]

theorem closeSocket_callbacks {s s' : St} {ud : Nat} {e : Errno} {as : List Act} (h : closeSocket s ud e as = .ok s') :
    callbacks s'.trace = callbacks s.trace ++ [.closed (fdOf ud) (tagOf ud) e] := by
  rw [closeSocket, unsubscribeAndClose] at h
  split at h
  · cases ec : close { s with mustClose := s.mustClose.erase (fdOf ud) } (fdOf ud) with
    | fault f => rw [ec] at h; cases h
    | ok s1 =>
      rw [ec] at h
      have h2 := close_callbacks ec
      rw [acts_callbacks h]
      show callbacks (s1.trace ++ [_]) = _
      rw [callbacks_append, h2]
      simp [callbacks, Obs.callback]
  · cases h

theorem ofByte_sticky (ud : Nat) : Sticky (SS.ofByte (stateOf ud)) := by
  have h : stateOf ud < 16 := by rw [(parts ud).2.1]; omega
  have key (i : Nat) (hi : 4 ≤ i) : (stateOf ud).testBit i = false :=
    Nat.testBit_lt_two_pow (Nat.lt_of_lt_of_le h (Nat.pow_le_pow_right (n := 2) (by omega) hi))
  exact ⟨key 4 (by omega), key 5 (by omega), key 6 (by omega), key 7 (by omega)⟩

/-- What the loop knows of a connection from its user data. -/
def known (ud : Nat) : Facts := factsOf (SS.ofByte (stateOf ud))

open Classical in
/-- **C87** Handling an event of a connection, whatever the kernel answers and whatever its handler does. The handler is
called exactly when, by the facts known before and the report, there is input it has not read or room it has not filled,
and is told which. Then the connection is closed, and the program told, exactly when the specification ends it (or the
kernel refuses to watch it further). Otherwise it is armed for input exactly if the input has not ended and nothing is
unread, for room exactly if the output has not ended and no room is left; and what the loop knows of it then is the facts
after the turn. -/
theorem handles_connection (s : St) (h : Reach s) (he : s.ended = false) (ud : Nat) (ev : Ep) (rest : List (Nat × Ep))
    (hp : s.pending = (ud, ev) :: rest) (hk : kindOf ud = some .socket) (c : Choice) (s' : St) (hs : handle s c = .ok s') :
    callbacks s'.trace = callbacks s.trace
      ++ (if ((known ud).report ev).calls then
            [.event (fdOf ud) (tagOf ud) ((known ud).report ev).unread ((known ud).report ev).room] else [])
      ++ (if Ended (known ud) ⟨ev, c.ops⟩ then [.closed (fdOf ud) (tagOf ud) (Turn.error (known ud) ⟨ev, c.ops⟩)]
          else if c.ctl ≠ 0 then [.closed (fdOf ud) (tagOf ud) c.ctl] else []) ∧
    (¬ Ended (known ud) ⟨ev, c.ops⟩ → c.ctl = 0 → ∃ r, s'.reg (fdOf ud) = some r ∧ r.armed = true ∧ r.rdhup = true ∧
      r.inn = (!((known ud).turn ⟨ev, c.ops⟩).inEnd && !((known ud).turn ⟨ev, c.ops⟩).unread) ∧
      r.out = (!((known ud).turn ⟨ev, c.ops⟩).outEnd && !((known ud).turn ⟨ev, c.ops⟩).room) ∧
      kindOf r.ud = some .socket ∧ fdOf r.ud = fdOf ud ∧ tagOf r.ud = tagOf ud ∧
      known r.ud = (known ud).turn ⟨ev, c.ops⟩) := by
  have hst := ofByte_sticky ud
  have hfacts := closes_iff _ ⟨ev, c.ops⟩ hst
  have h64 : ud < 2 ^ 64 := by
    rcases h.good with ⟨_, v, g⟩ | ⟨hf, _⟩
    · obtain ⟨_, r, hr, hu⟩ := g.1.pend (ud, ev) (by rw [hp]; simp)
      have := (g.1.reg _ _ hr).2.2.1
      rwa [hu] at this
    · rw [he] at hf; cases hf
  -- the part after the handler
  have tail : ∀ s1 : St, served s1 ud (afterTurn (SS.ofByte (stateOf ud)) ⟨ev, c.ops⟩).1
      (afterTurn (SS.ofByte (stateOf ud)) ⟨ev, c.ops⟩).2 c = .ok s' →
      callbacks s'.trace = callbacks s1.trace
        ++ (if Ended (known ud) ⟨ev, c.ops⟩ then [.closed (fdOf ud) (tagOf ud) (Turn.error (known ud) ⟨ev, c.ops⟩)]
          else if c.ctl ≠ 0 then [.closed (fdOf ud) (tagOf ud) c.ctl] else []) ∧
      (¬ Ended (known ud) ⟨ev, c.ops⟩ → c.ctl = 0 → ∃ r, s'.reg (fdOf ud) = some r ∧ r.armed = true ∧ r.rdhup = true ∧
        r.inn = (!((known ud).turn ⟨ev, c.ops⟩).inEnd && !((known ud).turn ⟨ev, c.ops⟩).unread) ∧
        r.out = (!((known ud).turn ⟨ev, c.ops⟩).outEnd && !((known ud).turn ⟨ev, c.ops⟩).room) ∧
        kindOf r.ud = some .socket ∧ fdOf r.ud = fdOf ud ∧ tagOf r.ud = tagOf ud ∧
        known r.ud = (known ud).turn ⟨ev, c.ops⟩) := by
    intro s1 h1
    unfold served at h1
    by_cases hc : Ended (known ud) ⟨ev, c.ops⟩
    · rw [if_pos (hfacts.2 hc)] at h1
      rw [if_pos hc]
      refine ⟨?_, fun hn => absurd hc hn⟩
      rw [closeSocket_callbacks h1, afterTurn_error]
      rfl
    · rw [if_neg (fun hx => hc (hfacts.1 hx))] at h1
      rw [if_neg hc]
      dsimp only at h1
      by_cases hz : c.ctl = 0
      · rw [if_neg (by simp [hz])] at h1
        rw [if_neg (by simp [hz]), List.append_nil]
        injection h1 with h1
        subst h1
        refine ⟨by rw [ctl_trace], fun _ _ => ?_⟩
        have he0 : Turn.error (known ud) ⟨ev, c.ops⟩ = 0 := by
          by_cases hh : Turn.error (known ud) ⟨ev, c.ops⟩ = 0
          · exact hh
          · exact absurd (.inl hh) hc
        obtain ⟨q1, q2, q3, q4, q5⟩ := withState_parts ud
          (newState (afterTurn (SS.ofByte (stateOf ud)) ⟨ev, c.ops⟩).1).byte (newState_byte _) h64
        obtain ⟨a1, a2⟩ := armed_iff _ ⟨ev, c.ops⟩ hst he0
        have hrem := remembers_facts _ ⟨ev, c.ops⟩ hst he0
        generalize afterTurn (SS.ofByte (stateOf ud)) ⟨ev, c.ops⟩ = w at a1 a2 q1 q2 q3 q4 hrem ⊢
        refine ⟨sockReg (withState ud (newState w.1).byte) (wakeRecv w.1) (wakeWrite w.1), ?_, rfl, rfl, a1, a2, ?_, q2, q3, ?_⟩
        · unfold ctl
          rw [if_pos hz]
          show (if fdOf ud = fdOf ud then _ else _) = _
          rw [if_pos rfl]
        · show kindOf (withState ud (newState w.1).byte) = _
          rw [q1, hk]
        · show factsOf (SS.ofByte (stateOf (withState ud (newState w.1).byte))) = _
          rw [q4, SS.ofByte_byte]
          exact hrem
      · rw [if_pos hz, ctl_err _ _ _ _ hz] at h1
        rw [if_pos hz]
        exact ⟨closeSocket_callbacks h1, fun _ h0 => absurd h0 hz⟩
  unfold handle at hs
  rw [hp] at hs
  dsimp only at hs
  rw [hk] at hs
  dsimp only at hs
  unfold socketEvent at hs
  dsimp only at hs
  have hcalls := calls_or (SS.ofByte (stateOf ud)) ev
  obtain ⟨t1, t2⟩ := told_facts (SS.ofByte (stateOf ud)) ev
  rw [hcalls, t1, t2] at hs
  by_cases hc : ((known ud).report ev).calls = true
  · rw [if_pos (show ((factsOf (SS.ofByte (stateOf ud))).report ev).calls = true from hc)] at hs
    cases ea : acts (St.say { s with pending := rest } (.event (fdOf ud) (tagOf ud)
        ((factsOf (SS.ofByte (stateOf ud))).report ev).unread ((factsOf (SS.ofByte (stateOf ud))).report ev).room)) c.acts with
    | fault f => rw [ea] at hs; cases hs
    | ok s1 =>
      rw [ea] at hs
      obtain ⟨b1, b2⟩ := tail s1 hs
      refine ⟨?_, b2⟩
      rw [b1, acts_callbacks ea, if_pos hc]
      congr 1
      show callbacks (s.trace ++ [_]) = _
      rw [callbacks_append]
      simp [callbacks, Obs.callback, known]
  · rw [if_neg (show ¬ ((factsOf (SS.ofByte (stateOf ud))).report ev).calls = true from hc)] at hs
    obtain ⟨b1, b2⟩ := tail _ hs
    refine ⟨?_, b2⟩
    rw [b1, if_neg hc, List.append_nil]

/-- The hypotheses of `handles_connection` are met: a reachable state with an event of a connection to handle. -/
example : ∃ s ud ev rest, Reach s ∧ s.ended = false ∧ s.pending = (ud, ev) :: rest ∧ kindOf ud = some .socket ∧
    (known ud).room = true ∧ ((known ud).report ev).unread = true := by
  have h0 : (match demoStart with | .ok s => (play s (demoEvents.take 1)).map (fun s => (s.ended, s.pending, s.reg 6)) | .fault _ => none) = some (false, [], some ⟨0x6300000621, true, false, true, true, true⟩) := by decide +kernel
  cases e : demoStart with
  | fault f => rw [e] at h0; cases h0
  | ok s0 =>
    rw [e] at h0
    dsimp only at h0
    cases e1 : play s0 (demoEvents.take 1) with
    | none => rw [e1] at h0; cases h0
    | some s1 =>
      rw [e1] at h0
      simp only [Option.map_some, Option.some.injEq, Prod.mk.injEq] at h0
      obtain ⟨a1, a2, a3⟩ := h0
      have hr := play_reach _ _ _ (Reach.start [0, 1, 2] 3 (.ok 4) 0 [.listen false (.ok 5) 0 0] 0 s0 (by decide) rfl e) e1
      refine ⟨deliver s1 [(6, { inn := true })], 0x6300000621, { inn := true }, [],
        Reach.wait s1 [(6, { inn := true })] hr a1 a2 (by simp) ?_, a1, ?_, by decide +kernel, by decide +kernel, by decide +kernel⟩
      · intro x hx
        simp only [List.mem_singleton] at hx
        subst hx
        exact ⟨_, a3, rfl, by unfold Allowed; decide⟩
      · simp [deliver, a3]

/-- A client comes when the kernel cannot watch any more descriptors (`ENOSPC`, 28). -/
def refused : List (Nat × Ep × Choice) := [(5, { inn := true }, ⟨.ok 6, 99, [], [], 28, []⟩)]

/-- **C87** (a fault of the code) The program is told that the connection has closed without an error, because line 684
passes the error of the loop instead of the error of `epoll_ctl`. -/
theorem refused_without_error : (match demoStart with | .ok s => (play s refused).map (·.trace) | _ => none) =
    some [.userOpen 0, .userOpen 1, .userOpen 2, .create 3, .create 4, .create 5, .create 6, .accepted 6 99,
      .close 6, .closed 6 99 0] := by decide +kernel

end Verif.Ev
