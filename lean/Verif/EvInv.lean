import Verif.EvPack
/-! # The invariant of the event loop, and the calls that keep it -/
namespace Verif.Ev

theorem View.read_append (v : View) (t u : List Obs) : v.read (t ++ u) = (v.read t).bind fun v => v.read u := by
  induction t generalizing v with
  | nil => rfl
  | cons o t ih =>
    simp only [List.cons_append, View.read]
    cases v.step o with
    | none => rfl
    | some w => exact ih w

theorem Reads.snoc {t : List Obs} {v v' : View} {o : Obs} (h : Reads t v) (e : v.step o = some v') :
    Reads (t ++ [o]) v' := by
  unfold Reads at *
  rw [View.read_append, h]
  show (v.step o).bind _ = _
  rw [e]; rfl

/-- The descriptors that are the loop's. -/
def St.sig (s : St) : List Nat := if s.signalFd = 0 then [] else [s.signalFd]

/-- The kernel's table agrees with the reader's, and the loop's descriptors are those in `l`. -/
structure Base (s : St) (v : View) (l : List Nat) : Prop where
  reads : Reads s.trace v
  opened : ∀ n, n ∈ s.opened ↔ v.owner n ≠ .free
  mine : ∀ n, n ∈ s.mine ↔ v.owner n = .program
  loop : ∀ n, n ∈ l ↔ v.owner n = .loop
  onodup : s.opened.Nodup
  mnodup : s.mine.Nodup
  lnodup : l.Nodup
  big : ∀ n ∈ l, 2 < n ∧ n ≤ 0xffffff

/-- What an entry of the interest list says. -/
def RegOK (s : St) (v : View) (n : Nat) (r : Reg) : Prop :=
  fdOf r.ud = n ∧ r.ud < 2 ^ 64 ∧
    ((kindOf r.ud = some .socket ∧ v.live n = some (tagOf r.ud) ∧ n ≠ s.signalFd) ∨
     (kindOf r.ud = some .server ∧ v.live n = none ∧ n ≠ s.signalFd) ∨
     (kindOf r.ud = some .watch ∧ v.live n = none ∧ n ≠ s.signalFd) ∨
     (kindOf r.ud = some .signals ∧ v.live n = none ∧ n = s.signalFd))

/-- The invariant; `x` are descriptors in hand: the loop's, but not yet (or no longer) in `must_close`. -/
structure Inv (s : St) (v : View) (x : List Nat) : Prop where
  base : Base s v (s.mustClose ++ (s.sig ++ x))
  reg : ∀ n r, s.reg n = some r → v.owner n = .loop ∧ RegOK s v n r
  live : ∀ n t, v.live n = some t → v.owner n = .loop ∧ n ≠ s.signalFd
  pend : ∀ p ∈ s.pending, (fdOf p.1 ∈ s.mustClose ++ s.sig) ∧ ∃ r, s.reg (fdOf p.1) = some r ∧ r.ud = p.1
  pnodup : (s.pending.map fun p => fdOf p.1).Nodup

/-- What stays the same while callbacks run. -/
structure Frame (s s' : St) (v v' : View) : Prop where
  pending : s'.pending = s.pending
  signalFd : s'.signalFd = s.signalFd
  err : s'.err = s.err
  ended : s'.ended = s.ended
  owner : ∀ n, v.owner n = .loop → v'.owner n = .loop ∧ v'.live n = v.live n ∧ s'.reg n = s.reg n
  must : ∀ n ∈ s.mustClose, n ∈ s'.mustClose
  must' : ∀ n, v.owner n = .loop → n ∈ s'.mustClose → n ∈ s.mustClose
  noconn : ∀ n, v.owner n ≠ .loop → v'.owner n = .loop → v'.live n = none

theorem Frame.refl (s : St) (v : View) : Frame s s v v :=
  ⟨rfl, rfl, rfl, rfl, fun _ h => ⟨h, rfl, rfl⟩, fun _ h => h, fun _ _ h => h, fun _ h h' => absurd h' h⟩

theorem Frame.trans {s s' s'' : St} {v v' v'' : View} (h : Frame s s' v v') (h' : Frame s' s'' v' v'') :
    Frame s s'' v v'' where
  pending := h'.pending.trans h.pending
  signalFd := h'.signalFd.trans h.signalFd
  err := h'.err.trans h.err
  ended := h'.ended.trans h.ended
  owner n hn := by
    obtain ⟨a, b, c⟩ := h.owner n hn
    obtain ⟨a', b', c'⟩ := h'.owner n a
    exact ⟨a', b'.trans b, c'.trans c⟩
  must n hn := h'.must n (h.must n hn)
  must' n hn hm := h.must' n hn (h'.must' n (h.owner n hn).1 hm)
  noconn n hn hm := by
    by_cases hl : v'.owner n = .loop
    · rw [(h'.owner n hl).2.1]; exact h.noconn n hn hl
    · exact h'.noconn n hl hm

theorem newFd_ok {s : St} {e : Except Errno Nat} {fd : Nat} (h : newFd s e = .ok fd) :
    2 < fd ∧ fd ≤ 0xffffff ∧ fd ∉ s.opened := by
  cases e with
  | error e => cases h
  | ok n =>
    have h : (if 2 < n ∧ n ≤ 0xffffff ∧ n ∉ s.opened then Except.ok n else Except.error EMFILE) = Except.ok fd := h
    split at h
    · injection h with h
      subst h
      assumption
    · cases h

theorem owner_free {s : St} {v : View} {l : List Nat} (h : Base s v l) {n : Nat} (hn : n ∉ s.opened) :
    v.owner n = .free := by
  by_cases e : v.owner n = .free
  · exact e
  · exact absurd ((h.opened n).2 e) hn

theorem Base.perm {s : St} {v : View} {l l' : List Nat} (h : Base s v l) (p : l.Perm l') : Base s v l' where
  reads := h.reads
  opened := h.opened
  mine := h.mine
  loop n := by rw [← h.loop n]; exact p.symm.mem_iff
  onodup := h.onodup
  mnodup := h.mnodup
  lnodup := p.nodup_iff.1 h.lnodup
  big n hn := h.big n (p.mem_iff.2 hn)

/-! ## A new descriptor -/

theorem Base.create {s : St} {v : View} {l : List Nat} (h : Base s v l) {fd : Nat}
    (hf : 2 < fd ∧ fd ≤ 0xffffff ∧ fd ∉ s.opened) : Base (s.create fd) (v.own fd .loop) (fd :: l) where
  reads := h.reads.snoc (by rw [View.step, if_pos (owner_free h hf.2.2)])
  opened n := by
    show n ∈ fd :: s.opened ↔ (if n = fd then Owner.loop else v.owner n) ≠ .free
    by_cases e : n = fd
    · simp [e]
    · rw [if_neg e, ← h.opened n]; simp [e]
  mine n := by
    show n ∈ s.mine ↔ (if n = fd then Owner.loop else v.owner n) = .program
    by_cases e : n = fd
    · rw [if_pos e, h.mine n, e, owner_free h hf.2.2]; simp
    · rw [if_neg e, ← h.mine n]
  loop n := by
    show n ∈ fd :: l ↔ (if n = fd then Owner.loop else v.owner n) = .loop
    by_cases e : n = fd
    · simp [e]
    · rw [if_neg e, ← h.loop n]; simp [e]
  onodup := List.nodup_cons.2 ⟨hf.2.2, h.onodup⟩
  mnodup := h.mnodup
  lnodup := List.nodup_cons.2 ⟨fun hm => (by
    have := (h.loop fd).1 hm
    rw [owner_free h hf.2.2] at this; cases this), h.lnodup⟩
  big n hn := by
    rcases List.mem_cons.1 hn with e | e
    · subst e; exact ⟨hf.1, hf.2.1⟩
    · exact h.big n e

theorem perm_hand (a b c : List Nat) (fd : Nat) : (fd :: (a ++ (b ++ c))).Perm (a ++ (b ++ fd :: c)) := by
  have h1 : (a ++ (b ++ fd :: c)).Perm (a ++ (fd :: (b ++ c))) := (List.perm_middle).append_left a
  exact (h1.trans List.perm_middle).symm

theorem Inv.create {s : St} {v : View} {x : List Nat} (h : Inv s v x) {fd : Nat}
    (hf : 2 < fd ∧ fd ≤ 0xffffff ∧ fd ∉ s.opened) :
    Inv (s.create fd) (v.own fd .loop) (fd :: x) ∧ Frame s (s.create fd) v (v.own fd .loop) ∧
      (v.own fd .loop).live fd = none ∧ s.reg fd = none ∧ fd ∉ s.mustClose ∧ fd ≠ s.signalFd := by
  have hfree := owner_free h.base hf.2.2
  have hlive : v.live fd = none := by
    cases e : v.live fd with
    | none => rfl
    | some t => have := (h.live fd t e).1; rw [hfree] at this; cases this
  have hnm : fd ∉ s.mustClose ++ (s.sig ++ x) := fun hm => by
    have := (h.base.loop fd).1 hm; rw [hfree] at this; cases this
  have hsf : fd ≠ s.signalFd := by
    intro e
    apply hnm
    simp only [List.mem_append, St.sig]
    right; left
    rw [if_neg (by omega), e]; simp
  refine ⟨⟨(h.base.create hf).perm (perm_hand _ _ _ _), ?_, ?_, ?_, h.pnodup⟩, ?_, hlive, ?_, ?_, hsf⟩
  · intro n r hr
    obtain ⟨a, b⟩ := h.reg n r hr
    refine ⟨?_, b⟩
    show (if n = fd then Owner.loop else v.owner n) = .loop
    split
    · rfl
    · exact a
  · intro n t ht
    obtain ⟨a, b⟩ := h.live n t ht
    refine ⟨?_, b⟩
    show (if n = fd then Owner.loop else v.owner n) = .loop
    split
    · rfl
    · exact a
  · exact h.pend
  · refine ⟨rfl, rfl, rfl, rfl, ?_, fun _ hn => hn, fun _ _ hm => hm, ?_⟩
    · intro n hn
      refine ⟨?_, rfl, rfl⟩
      show (if n = fd then Owner.loop else v.owner n) = .loop
      split
      · rfl
      · exact hn
    · intro n hn hm
      show v.live n = none
      by_cases e : n = fd
      · rw [e]; exact hlive
      · exfalso
        apply hn
        have : (if n = fd then Owner.loop else v.owner n) = .loop := hm
        rwa [if_neg e] at this
  · cases e : s.reg fd with
    | none => rfl
    | some r => have := (h.reg fd r e).1; rw [hfree] at this; cases this
  · intro hm; exact hnm (by simp [hm])

/-! ## Closing a descriptor -/

theorem Base.close {s : St} {v : View} {l : List Nat} {fd : Nat} (h : Base s v (fd :: l)) :
    ∃ s', close s (fd : Int) = .ok s' ∧ Base s' (v.own fd .free) l ∧
      s' = { s with opened := s.opened.erase fd, mine := s.mine.erase fd,
                    reg := fun n => if n = fd then none else s.reg n, trace := s.trace ++ [.close fd] } := by
  have hl : v.owner fd = .loop := (h.loop fd).1 (by simp)
  have hb := (h.big fd (by simp)).1
  have hnd := List.nodup_cons.1 h.lnodup
  have hmine : fd ∉ s.mine := fun hm => by
    have := (h.mine fd).1 hm; rw [hl] at this; cases this
  refine ⟨_, by rw [Verif.Ev.close, if_pos (by omega)]; rfl, ?_, rfl⟩
  refine ⟨h.reads.snoc (by rw [View.step, if_pos hl]), ?_, ?_, ?_, ?_, ?_, hnd.2, ?_⟩
  · intro n
    show n ∈ s.opened.erase fd ↔ (if n = fd then Owner.free else v.owner n) ≠ .free
    by_cases e : n = fd
    · subst e; simp [h.onodup.mem_erase_iff]
    · rw [if_neg e, ← h.opened n, h.onodup.mem_erase_iff]; simp [e]
  · intro n
    show n ∈ s.mine.erase fd ↔ (if n = fd then Owner.free else v.owner n) = .program
    by_cases e : n = fd
    · subst e; simp [h.mnodup.mem_erase_iff]
    · rw [if_neg e, ← h.mine n, h.mnodup.mem_erase_iff]; simp [e]
  · intro n
    show n ∈ l ↔ (if n = fd then Owner.free else v.owner n) = .loop
    by_cases e : n = fd
    · subst e; simp [hnd.1]
    · rw [if_neg e, ← h.loop n]; simp [e]
  · exact h.onodup.erase fd
  · exact h.mnodup.erase fd
  · intro n hn; exact h.big n (by simp [hn])

/-- Closing a descriptor in hand that is no connection. -/
theorem Inv.close {s : St} {v : View} {x : List Nat} {fd : Nat} (h : Inv s v (fd :: x)) (hlive : v.live fd = none)
    (hx : v.owner fd = .loop → fd ∉ s.mustClose ++ s.sig) :
    ∃ s', close s (fd : Int) = .ok s' ∧ Inv s' (v.own fd .free) x ∧ s'.trace = s.trace ++ [.close fd] ∧
      s'.pending = s.pending ∧ s'.signalFd = s.signalFd ∧ s'.err = s.err ∧ s'.ended = s.ended ∧
      s'.mustClose = s.mustClose ∧ ∀ n, n ≠ fd → s'.reg n = s.reg n := by
  obtain ⟨s', e, hb, es⟩ := (h.base.perm (perm_hand _ _ _ _).symm).close
  have hl : v.owner fd = .loop := (h.base.loop fd).1 (by simp)
  refine ⟨s', e, ?_, by rw [es], by rw [es], by rw [es], by rw [es], by rw [es], by rw [es], ?_⟩
  · subst es
    refine ⟨hb, ?_, ?_, ?_, h.pnodup⟩
    · intro n r hr
      have hr : (if n = fd then none else s.reg n) = some r := hr
      split at hr
      · cases hr
      · rename_i hne
        obtain ⟨a, b⟩ := h.reg n r hr
        refine ⟨?_, b⟩
        show (if n = fd then Owner.free else v.owner n) = .loop
        rw [if_neg hne]; exact a
    · intro n t ht
      obtain ⟨a, b⟩ := h.live n t ht
      refine ⟨?_, b⟩
      show (if n = fd then Owner.free else v.owner n) = .loop
      rw [if_neg (fun hc => ?_)]
      · exact a
      · subst hc; rw [show (v.own n .free).live n = v.live n from rfl, hlive] at ht; cases ht
    · intro p hp
      obtain ⟨a, r, b, c⟩ := h.pend p hp
      refine ⟨a, r, ?_, c⟩
      show (if fdOf p.1 = fd then none else s.reg (fdOf p.1)) = some r
      rw [if_neg (fun hc => hx hl (by rw [← hc]; exact a))]
      exact b
  · intro n hn
    rw [es]
    show (if n = fd then none else s.reg n) = s.reg n
    rw [if_neg hn]

theorem hand_fresh {s : St} {v : View} {x : List Nat} {fd : Nat} (h : Inv s v (fd :: x)) : fd ∉ s.mustClose ++ s.sig := by
  have := h.base.lnodup
  rw [← List.append_assoc, List.nodup_append] at this
  intro hm
  exact this.2.2 fd hm fd (by simp) rfl

/-- Closing the descriptor of a connection, and telling the program. -/
theorem Inv.closeConn {s : St} {v : View} {x : List Nat} {fd : Nat} {tag : BitVec 32} (h : Inv s v (fd :: x))
    (hlive : v.live fd = some tag) :
    ∃ s', Verif.Ev.close s (fd : Int) = .ok s' ∧ s'.err = s.err ∧
      ∀ e, Inv (s'.say (.closed fd tag e)) ((v.own fd .free).set fd none) x ∧
        (s'.say (.closed fd tag e)).pending = s.pending ∧ (s'.say (.closed fd tag e)).ended = s.ended ∧
        (s'.say (.closed fd tag e)).signalFd = s.signalFd := by
  obtain ⟨s', e, hb, es⟩ := (h.base.perm (perm_hand _ _ _ _).symm).close
  have hl : v.owner fd = .loop := (h.base.loop fd).1 (by simp)
  have hx := hand_fresh h
  refine ⟨s', e, by rw [es], fun er => ⟨?_, by rw [es]; rfl, by rw [es]; rfl, by rw [es]; rfl⟩⟩
  subst es
  refine ⟨⟨?_, hb.opened, hb.mine, hb.loop, hb.onodup, hb.mnodup, hb.lnodup, hb.big⟩, ?_, ?_, ?_, h.pnodup⟩
  · refine hb.reads.snoc ?_
    have e1 : (v.own fd .free).owner fd = .free := by show (if fd = fd then _ else _) = _; rw [if_pos rfl]
    have e2 : (v.own fd .free).live fd = some tag := hlive
    rw [View.step, if_pos ⟨e1, e2⟩]
  · intro n r hr
    have hr : (if n = fd then none else s.reg n) = some r := hr
    split at hr
    · cases hr
    · rename_i hne
      obtain ⟨a, b⟩ := h.reg n r hr
      refine ⟨?_, ?_⟩
      · show (if n = fd then Owner.free else v.owner n) = .loop
        rw [if_neg hne]; exact a
      · unfold RegOK at b ⊢
        rw [show ((v.own fd .free).set fd none).live n = v.live n by
          show (if n = fd then none else v.live n) = v.live n
          rw [if_neg hne]]
        exact b
  · intro n t ht
    have ht : (if n = fd then none else v.live n) = some t := ht
    split at ht
    · cases ht
    · rename_i hne
      obtain ⟨a, b⟩ := h.live n t ht
      refine ⟨?_, b⟩
      show (if n = fd then Owner.free else v.owner n) = .loop
      rw [if_neg hne]; exact a
  · intro p hp
    obtain ⟨a, r, b, c⟩ := h.pend p hp
    refine ⟨a, r, ?_, c⟩
    show (if fdOf p.1 = fd then none else s.reg (fdOf p.1)) = some r
    rw [if_neg (fun hc => hx (by rw [← hc]; exact a))]
    exact b

/-! ## The interest list, and `must_close` -/

theorem Inv.mustAdd {s : St} {v : View} {x : List Nat} {fd : Nat} (h : Inv s v (fd :: x)) :
    Inv (s.mustAdd fd) v x ∧ (s.mustAdd fd).mustClose = fd :: s.mustClose := by
  have hx := hand_fresh h
  have hnm : fd ∉ s.mustClose := fun hm => hx (by simp [hm])
  have e : s.mustAdd fd = { s with mustClose := fd :: s.mustClose } := by
    unfold St.mustAdd; rw [if_neg hnm]
  rw [e]
  refine ⟨⟨⟨h.base.reads, h.base.opened, h.base.mine, ?_, h.base.onodup, h.base.mnodup, ?_, ?_⟩, h.reg, h.live, ?_,
    h.pnodup⟩, rfl⟩
  · intro n
    rw [← h.base.loop n]
    exact (perm_hand s.mustClose s.sig x fd).mem_iff
  · exact (perm_hand s.mustClose s.sig x fd).nodup_iff.2 h.base.lnodup
  · intro n hn
    exact h.base.big n ((perm_hand s.mustClose s.sig x fd).mem_iff.1 hn)
  · intro p hp
    obtain ⟨a, b⟩ := h.pend p hp
    refine ⟨?_, b⟩
    show fdOf p.1 ∈ fd :: s.mustClose ++ s.sig
    rw [List.cons_append]
    exact List.mem_cons_of_mem _ a

theorem Inv.ctl {s : St} {v : View} {x : List Nat} {fd : Nat} {r : Reg} {e : Errno} (h : Inv s v x)
    (hl : v.owner fd = .loop) (hr : RegOK s v fd r) (hp : ∀ p ∈ s.pending, fdOf p.1 ≠ fd) :
    Inv (ctl s fd r e) v x := by
  unfold Verif.Ev.ctl
  split
  · refine ⟨⟨h.base.reads, h.base.opened, h.base.mine, h.base.loop, h.base.onodup, h.base.mnodup, h.base.lnodup,
      h.base.big⟩, ?_, h.live, ?_, h.pnodup⟩
    · intro n r' hr'
      have hr' : (if n = fd then some r else s.reg n) = some r' := hr'
      split at hr'
      · rename_i e
        injection hr' with e'
        subst e; subst e'
        exact ⟨hl, hr⟩
      · exact h.reg n r' hr'
    · intro p hp'
      obtain ⟨a, r', b, c⟩ := h.pend p hp'
      refine ⟨a, r', ?_, c⟩
      show (if fdOf p.1 = fd then some r else s.reg (fdOf p.1)) = some r'
      rw [if_neg (hp p hp')]
      exact b
  · exact h

theorem ctl_frame (s : St) (fd : Nat) (r : Reg) (e : Errno) : (ctl s fd r e).pending = s.pending ∧
    (ctl s fd r e).signalFd = s.signalFd ∧ (ctl s fd r e).err = s.err ∧ (ctl s fd r e).ended = s.ended ∧
    (ctl s fd r e).mustClose = s.mustClose ∧ (∀ n, n ≠ fd → (ctl s fd r e).reg n = s.reg n) := by
  unfold ctl
  split
  · refine ⟨rfl, rfl, rfl, rfl, rfl, ?_⟩
    intro n hn
    show (if n = fd then _ else _) = _
    rw [if_neg hn]
  · exact ⟨rfl, rfl, rfl, rfl, rfl, fun _ _ => rfl⟩

theorem Inv.say {s : St} {v : View} {x : List Nat} {o : Obs} (h : Inv s v x) (e : v.step o = some v) :
    Inv (s.say o) v x :=
  ⟨⟨h.base.reads.snoc e, h.base.opened, h.base.mine, h.base.loop, h.base.onodup, h.base.mnodup, h.base.lnodup,
    h.base.big⟩, h.reg, h.live, h.pend, h.pnodup⟩

end Verif.Ev
