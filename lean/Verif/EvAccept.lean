import Verif.EvTurn
/-! # C85, C87: how a connection begins -/
namespace Verif.Ev

theorem SS_byte_lt (w : Bool) : ({ writeable := w } : SS).byte % 16 = ({ writeable := w } : SS).byte := by
  cases w <;> rfl

/-- **C87** A client comes to a server and the kernel answers all calls: `socket_accepted` is called and nothing else; the
connection is watched for input, for room exactly if the server wants to be asked for writing first
(`WantsWriteBeforeRead`), and otherwise counts as having room; its input and output have not ended and nothing is unread. -/
theorem handles_accept (s : St) (ud : Nat) (ev : Ep) (rest : List (Nat × Ep)) (hp : s.pending = (ud, ev) :: rest)
    (hk : kindOf ud = some .server) (c : Choice) (fd : Nat) (s' : St) (hs : handle s c = .ok s') (he : ev.err = false)
    (ha : newFd { s with pending := rest } c.accept = .ok fd) (hc : c.ctl = 0) :
    callbacks s'.trace = callbacks s.trace ++ [.accepted fd c.tag] ∧ fd ∈ s'.mustClose ∧
    ∃ r, s'.reg fd = some r ∧ r.armed = true ∧ r.inn = true ∧ r.rdhup = true ∧ r.out = (stateOf ud).testBit 0 ∧
      kindOf r.ud = some .socket ∧ fdOf r.ud = fd ∧ tagOf r.ud = c.tag ∧
      known r.ud = { unread := false, room := !(stateOf ud).testBit 0, inEnd := false, outEnd := false } := by
  unfold handle at hs
  rw [hp] at hs
  dsimp only at hs
  rw [hk] at hs
  dsimp only at hs
  unfold serverEvent at hs
  rw [if_neg (by simp [evErr, he]), ha] at hs
  dsimp only at hs
  unfold accepted at hs
  dsimp only at hs
  cases ea : acts (((({ s with pending := rest } : St).create fd)).say (.accepted fd c.tag)) c.acts with
  | fault f => rw [ea] at hs; cases hs
  | ok s1 =>
    rw [ea] at hs
    dsimp only [R.bind] at hs
    cases ep : pack .socket fd ({ writeable := !(stateOf ud).testBit 0 } : SS).byte c.tag with
    | none => rw [ep] at hs; cases hs
    | some ud' =>
      rw [ep] at hs
      dsimp only at hs
      rw [if_neg (by simp [hc])] at hs
      injection hs with hs
      subst hs
      obtain ⟨u1, u2, u3, u4, _⟩ := pack_unpack _ _ _ _ _ ep
      refine ⟨?_, ?_, sockReg ud' true (stateOf ud |>.testBit 0), ?_, rfl, rfl, rfl, rfl, u1, u2, u4, ?_⟩
      · show callbacks (ctl _ _ _ _).trace = _
        rw [ctl_trace, acts_callbacks ea]
        show callbacks ((s.trace ++ [.create fd]) ++ [.accepted fd c.tag]) = _
        rw [callbacks_append, callbacks_append]
        simp [callbacks, Obs.callback]
      · show fd ∈ (if fd ∈ _ then _ else fd :: _)
        split
        · assumption
        · simp
      · show (ctl _ _ _ _).reg fd = _
        unfold ctl
        rw [if_pos hc]
        show (if fd = fd then _ else _) = _
        rw [if_pos rfl, Bool.not_not]
      · show factsOf (SS.ofByte (stateOf ud')) = _
        rw [u3, SS_byte_lt]
        generalize (stateOf ud).testBit 0 = w
        cases w <;> rfl

/-- **C87** A successful `ipv4_listen` watches its descriptor for clients, with the option it was given. -/
theorem listens (s : St) (w : Bool) (sock : Except Errno Nat) (fd : Nat) (s' : St) (hf : newFd s sock = .ok fd)
    (h : act s (.listen w sock 0 0) = .ok s') :
    fd ∈ s'.mustClose ∧ ∃ r, s'.reg fd = some r ∧ r.armed = true ∧ r.oneshot = false ∧ r.inn = true ∧
      kindOf r.ud = some .server ∧ fdOf r.ud = fd ∧ (stateOf r.ud).testBit 0 = w := by
  rw [act, listen, hf] at h
  dsimp only at h
  rw [listenWith, if_neg (by simp)] at h
  cases ep : pack .server fd (optsByte w) 0 with
  | none => rw [ep] at h; cases h
  | some ud =>
    rw [ep] at h
    dsimp only at h
    rw [if_neg (by simp)] at h
    injection h with h
    subst h
    obtain ⟨u1, u2, u3, _, _⟩ := pack_unpack _ _ _ _ _ ep
    refine ⟨?_, ⟨ud, true, false, false, false, true⟩, ?_, rfl, rfl, rfl, u1, u2, ?_⟩
    · show fd ∈ (if fd ∈ _ then _ else fd :: _)
      split
      · assumption
      · simp
    · show (ctl (s.create fd) fd ⟨ud, true, false, false, false, true⟩ 0).reg fd = _
      unfold ctl
      rw [if_pos rfl]
      show (if fd = fd then _ else _) = _
      rw [if_pos rfl]
    · rw [u3]; cases w <;> rfl

/-- Both happen: the run of `EvProps` listens on 5 and accepts 6. -/
example : (match demoStart with | .ok s => (play s (demoEvents.take 1)).map fun s => (s.mustClose, s.reg 5, s.reg 6) | _ => none) =
    some ([6, 5, 3], some ⟨0x500, true, false, false, false, true⟩, some ⟨0x6300000621, true, false, true, true, true⟩) := by
  decide +kernel

end Verif.Ev
