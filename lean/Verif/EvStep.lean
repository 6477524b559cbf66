import Verif.EvActs
/-! # Handling an event keeps the invariant -/
namespace Verif.Ev

/-- Every live connection is armed on the interest list or about to be handled, except those in `y`. -/
def Watched (s : St) (v : View) (y : List Nat) : Prop :=
  ∀ n t, v.live n = some t → n ∈ y ∨ ∃ r, s.reg n = some r ∧ kindOf r.ud = some .socket ∧ r.rdhup = true ∧
    (r.armed = true ∨ n ∈ s.pending.map fun p => fdOf p.1)

theorem Watched.frame {s s' : St} {v v' : View} {x y : List Nat} (h : Watched s v y) (i : Inv s' v' x)
    (f : Frame s s' v v') : Watched s' v' y := by
  intro n t ht
  have ho := (i.live n t ht).1
  by_cases hl : v.owner n = .loop
  · obtain ⟨_, b, c⟩ := f.owner n hl
    rcases h n t (by rw [← b]; exact ht) with hy | ⟨r, hr, hk, hd, hp⟩
    · exact .inl hy
    · refine .inr ⟨r, by rw [c]; exact hr, hk, hd, ?_⟩
      rw [f.pending]; exact hp
  · rw [f.noconn n hl ho] at ht; cases ht

/-- Between two events. -/
def Good (s : St) (v : View) : Prop := Inv s v [] ∧ Watched s v []

/-- How handling ends: in order, or with the assertion of `close` failing inside `ipv4_listen`. -/
def Ends (r : R St) (as : List Act) : Prop :=
  (∃ s', r = .ok s' ∧ ((s'.ended = false ∧ ∃ v', Good s' v') ∨ (s'.ended = true ∧ ∃ v', Base s' v' []))) ∨
  (r = .fault .closeLow ∧ ∃ a ∈ as, a.listens = true)

theorem Ends.acts {s : St} {v : View} (h : Good s v) (hd : s.ended = false) (as : List Act) : Ends (acts s as) as := by
  rcases acts_spec h.1 as with ⟨s', v', e, i, f⟩ | ⟨e, hl⟩
  · exact .inl ⟨s', e, .inl ⟨by rw [f.ended]; exact hd, v', i, h.2.frame i f⟩⟩
  · exact .inr ⟨e, hl⟩

theorem Ends.mono {r : R St} {as bs : List Act} (h : Ends r as) (hs : ∀ a ∈ as, a ∈ bs) : Ends r bs := by
  rcases h with h | ⟨e, a, ha, hl⟩
  · exact .inl h
  · exact .inr ⟨e, a, hs a ha, hl⟩

/-! ## Closing -/

theorem unsub_inv {s : St} {v : View} {x : List Nat} (h : Inv s v x) {fd : Nat} (hm : fd ∈ s.mustClose)
    (hp : ∀ p ∈ s.pending, fdOf p.1 ≠ fd) : Inv { s with mustClose := s.mustClose.erase fd } v (fd :: x) := by
  have hperm : (s.mustClose ++ (s.sig ++ x)).Perm (s.mustClose.erase fd ++ (s.sig ++ fd :: x)) := by
    refine List.Perm.trans ?_ (perm_hand _ _ _ _)
    rw [← List.cons_append]
    exact (List.perm_cons_erase hm).append_right _
  have hb := h.base.perm hperm
  refine ⟨⟨hb.reads, hb.opened, hb.mine, hb.loop, hb.onodup, hb.mnodup, hb.lnodup, hb.big⟩, h.reg, h.live, ?_, h.pnodup⟩
  intro p hpp
  obtain ⟨a, b⟩ := h.pend p hpp
  refine ⟨?_, b⟩
  show fdOf p.1 ∈ s.mustClose.erase fd ++ s.sig
  rcases List.mem_append.1 a with a | a
  · exact List.mem_append.2 (.inl ((List.mem_erase_of_ne (hp p hpp)).2 a))
  · exact List.mem_append.2 (.inr a)

theorem closed_watched {s s' : St} {v : View} {fd : Nat} (h : Watched s v [fd]) (hp : s'.pending = s.pending)
    (hr : ∀ n, n ≠ fd → s'.reg n = s.reg n) : Watched s' ((v.own fd .free).set fd none) [] := by
  intro n t ht
  have ht : (if n = fd then none else v.live n) = some t := ht
  split at ht
  · cases ht
  · rename_i hne
    right
    rcases h n t ht with hy | ⟨r, a, b, c, d⟩
    · simp [hne] at hy
    · exact ⟨r, by rw [hr n hne]; exact a, b, c, by rw [hp]; exact d⟩

theorem close_reg {s s' : St} {fd : Nat} (e : close s (fd : Int) = .ok s') : ∀ n, n ≠ fd → s'.reg n = s.reg n := by
  unfold close at e
  split at e
  · injection e with e
    subst e
    intro n hn
    show (if n = ((fd : Int)).toNat then none else s.reg n) = s.reg n
    rw [if_neg (by simpa using hn)]
  · cases e

theorem Ends.close {s : St} {v : View} {fd : Nat} {tag : BitVec 32} (h : Inv s v [fd]) (w : Watched s v [fd])
    (hlive : v.live fd = some tag) (hd : s.ended = false) (er : St → Errno) (as : List Act) :
    Ends ((Verif.Ev.close s (fd : Int)).bind fun s => Verif.Ev.acts (s.say (.closed fd tag (er s))) as) as := by
  obtain ⟨s', e, _, hi⟩ := h.closeConn hlive
  rw [e]
  show Ends (Verif.Ev.acts (s'.say (.closed fd tag (er s'))) as) as
  obtain ⟨i, p, d, _⟩ := hi (er s')
  exact Ends.acts ⟨i, closed_watched w p (fun n hn => close_reg e n hn)⟩ (by rw [d]; exact hd) as

theorem closeSocket_ends {s : St} {v : View} {ud : Nat} (h : Inv s v []) (w : Watched s v [fdOf ud])
    (hlive : v.live (fdOf ud) = some (tagOf ud)) (hm : fdOf ud ∈ s.mustClose)
    (hp : ∀ p ∈ s.pending, fdOf p.1 ≠ fdOf ud) (hd : s.ended = false) (e : Errno) (as : List Act) :
    Ends (closeSocket s ud e as) as := by
  rw [closeSocket, unsubscribeAndClose, if_pos hm]
  refine Ends.close (v := v) (unsub_inv h hm hp) ?_ hlive hd (fun _ => e) as
  intro n t ht
  exact w n t ht

/-! ## A connection's event -/

theorem served_ends {s : St} {v : View} {ud : Nat} (h : Inv s v []) (w : Watched s v [fdOf ud])
    (hlive : v.live (fdOf ud) = some (tagOf ud)) (hm : fdOf ud ∈ s.mustClose) (hk : kindOf ud = some .socket)
    (hu : ud < 2 ^ 64) (hs : fdOf ud ≠ s.signalFd)
    (hp : ∀ p ∈ s.pending, fdOf p.1 ≠ fdOf ud) (hd : s.ended = false) (st : SS) (e : Errno) (c : Choice) :
    Ends (served s ud st e c) (c.acts ++ c.acts') := by
  unfold served
  by_cases hc : mustClose st = true ∨ e ≠ 0
  · rw [if_pos hc]
    exact (closeSocket_ends h w hlive hm hp hd e c.acts').mono (fun a ha => by simp [ha])
  · rw [if_neg hc]
    dsimp only
    by_cases he : c.ctl = 0
    · rw [if_neg (by simp [he])]
      obtain ⟨q1, q2, q3, _, q5⟩ := withState_parts ud (newState st).byte (newState_byte st) hu
      have hl := (h.live _ _ hlive).1
      have i := h.ctl (e := c.ctl) hl (r := sockReg (withState ud (newState st).byte) (wakeRecv st) (wakeWrite st))
        ⟨q2, q5, .inl ⟨by rw [← hk]; exact q1, by rw [hlive]; exact congrArg some q3.symm, hs⟩⟩ hp
      refine .inl ⟨_, rfl, .inl ⟨?_, v, i, ?_⟩⟩
      · rw [(ctl_frame _ _ _ _).2.2.2.1]; exact hd
      · intro n t ht
        right
        by_cases hn : n = fdOf ud
        · refine ⟨sockReg (withState ud (newState st).byte) (wakeRecv st) (wakeWrite st), ?_, by rw [← hk]; exact q1, rfl,
            .inl rfl⟩
          unfold ctl
          rw [if_pos he]
          show (if n = fdOf ud then _ else _) = _
          rw [if_pos hn]
        · rcases w n t ht with hy | ⟨r, a, b, cc, d⟩
          · simp [hn] at hy
          · refine ⟨r, ?_, b, cc, ?_⟩
            · rw [(ctl_frame _ _ _ _).2.2.2.2.2 n hn]; exact a
            · rw [(ctl_frame _ _ _ _).1]; exact d
    · rw [if_pos he, ctl_err _ _ _ _ he]
      exact (closeSocket_ends h w hlive hm hp hd c.ctl c.acts').mono (fun a ha => by simp [ha])

theorem sig_mem {s : St} {n : Nat} (h : n ∈ s.sig) : n = s.signalFd := by
  unfold St.sig at h
  split at h
  · cases h
  · simpa using h

theorem socketEvent_ends {s : St} {v : View} {ud : Nat} {ev : Ep} {r : Reg} (h : Inv s v [])
    (w : Watched s v [fdOf ud]) (hr : s.reg (fdOf ud) = some r) (hu : r.ud = ud) (hk : kindOf ud = some .socket)
    (hm : fdOf ud ∈ s.mustClose ++ s.sig) (hp : ∀ p ∈ s.pending, fdOf p.1 ≠ fdOf ud) (hd : s.ended = false)
    (c : Choice) : Ends (socketEvent s ud ev c) (c.acts ++ c.acts') := by
  obtain ⟨ho, hf, h64, hcase⟩ := h.reg _ _ hr
  rw [hu] at h64 hcase
  rw [hk] at hcase
  have hc : v.live (fdOf ud) = some (tagOf ud) ∧ fdOf ud ≠ s.signalFd := by
    rcases hcase with a | a | a | a
    · exact a.2
    all_goals (have := a.1; cases this)
  obtain ⟨hlive, hs⟩ := hc
  have hm' : fdOf ud ∈ s.mustClose := by
    rcases List.mem_append.1 hm with a | a
    · exact a
    · exact absurd (sig_mem a) hs
  unfold socketEvent
  dsimp only
  split
  · rename_i hrw
    have i1 : Inv (s.say (.event (fdOf ud) (tagOf ud) ((evState ev).or (SS.ofByte (stateOf ud))).readable
        ((evState ev).or (SS.ofByte (stateOf ud))).writeable)) v [] := by
      refine h.say ?_
      rw [View.step, if_pos ⟨ho, hlive, by simpa using hrw⟩]
    rcases acts_spec i1 c.acts with ⟨s', v', e, i, f⟩ | ⟨e, a, ha, hl⟩
    · rw [e]
      obtain ⟨o1, o2, o3⟩ := f.owner (fdOf ud) ho
      refine served_ends i (Watched.frame (s := s.say _) w i f) (by rw [o2]; exact hlive) (f.must _ hm') hk h64
        (by rw [f.signalFd]; exact hs) (by rw [f.pending]; exact hp) (by rw [f.ended]; exact hd) _ _ c
    · rw [e]
      exact .inr ⟨rfl, a, by simp [ha], hl⟩
  · exact served_ends h w hlive hm' hk h64 hs hp hd _ _ c

/-! ## A server's event -/

theorem accept_inv {s : St} {v : View} {fd : Nat} {tag : BitVec 32} (h : Inv s v [fd])
    (hlive : v.live fd = none) (hreg : s.reg fd = none) (hs : fd ≠ s.signalFd) :
    Inv (s.say (.accepted fd tag)) (v.set fd (some tag)) [fd] := by
  have hl : v.owner fd = .loop := (h.base.loop fd).1 (by simp)
  refine ⟨⟨h.base.reads.snoc (by rw [View.step, if_pos ⟨hl, hlive⟩]), h.base.opened, h.base.mine, h.base.loop, h.base.onodup,
    h.base.mnodup, h.base.lnodup, h.base.big⟩, ?_, ?_, h.pend, h.pnodup⟩
  · intro n r hr
    have hr' : s.reg n = some r := hr
    obtain ⟨a, b⟩ := h.reg n r hr'
    refine ⟨a, ?_⟩
    unfold RegOK at b ⊢
    rw [show (v.set fd (some tag)).live n = v.live n by
      show (if n = fd then _ else _) = _
      rw [if_neg (fun hc => by subst hc; rw [hreg] at hr'; cases hr')]]
    exact b
  · intro n t ht
    have ht : (if n = fd then some tag else v.live n) = some t := ht
    split at ht
    · rename_i e; subst e; exact ⟨hl, hs⟩
    · exact h.live n t ht

theorem SS.pack_ok {fd : Nat} (b : Bool) (tag : BitVec 32) (h : fd ≤ 0xffffff) :
    ∃ ud, pack .socket fd ({ writeable := b } : SS).byte tag = some ud := pack_some _ _ _ _ h

theorem accepted_ends {s : St} {v : View} (h : Good s v) (hd : s.ended = false) {fd : Nat}
    (hf : 2 < fd ∧ fd ≤ 0xffffff ∧ fd ∉ s.opened) (ud : Nat) (c : Choice) :
    Ends (accepted (s.create fd) ud fd c) (c.acts ++ c.acts') := by
  obtain ⟨h1, f1, hl, hreg, hnm, hsf⟩ := h.1.create hf
  have w1 := h.2.frame h1 f1
  have h2 := accept_inv (tag := c.tag) h1 hl hreg hsf
  have hown : (v.own fd .loop).owner fd = .loop := by show (if fd = fd then _ else _) = _; rw [if_pos rfl]
  have w2 : Watched ((s.create fd).say (.accepted fd c.tag)) ((v.own fd .loop).set fd (some c.tag)) [fd] := by
    intro n t ht
    by_cases hn : n = fd
    · exact .inl (by simp [hn])
    · right
      have ht : (if n = fd then some c.tag else (v.own fd .loop).live n) = some t := ht
      rw [if_neg hn] at ht
      rcases w1 n t ht with hy | hy
      · cases hy
      · exact hy
  unfold accepted
  dsimp only
  rcases acts_spec h2 c.acts with ⟨s', v', e, i, f⟩ | ⟨e, a, ha, hl⟩
  · rw [e]
    dsimp only [R.bind]
    obtain ⟨o1, o2, o3⟩ := f.owner fd hown
    have hlive' : v'.live fd = some c.tag := by
      rw [o2]
      show (if fd = fd then _ else _) = _
      rw [if_pos rfl]
    have w3 := w2.frame i f
    have hd' : s'.ended = false := by rw [f.ended]; exact hd
    obtain ⟨ud', hud⟩ := SS.pack_ok (!(stateOf ud).testBit 0) c.tag hf.2.1
    obtain ⟨u1, u2, _, u4, u5⟩ := pack_unpack _ _ _ _ _ hud
    rw [hud]
    dsimp only
    by_cases he : c.ctl = 0
    · rw [if_neg (by simp [he])]
      have i2 := i.ctl (e := c.ctl) (r := sockReg ud' true (!(!(stateOf ud).testBit 0))) o1
        ⟨u2, u5, .inl ⟨u1, by rw [hlive']; exact congrArg some u4.symm, by rw [f.signalFd]; exact hsf⟩⟩ (pending_ne i)
      obtain ⟨i3, em⟩ := i2.mustAdd
      refine .inl ⟨_, rfl, .inl ⟨?_, v', i3, ?_⟩⟩
      · show (ctl _ _ _ _).ended = false
        rw [(ctl_frame _ _ _ _).2.2.2.1]; exact hd'
      · intro n t ht
        right
        by_cases hn : n = fd
        · refine ⟨sockReg ud' true (!(!(stateOf ud).testBit 0)), ?_, u1, rfl, .inl rfl⟩
          show (ctl _ _ _ _).reg n = _
          unfold ctl
          rw [if_pos he]
          show (if n = fd then _ else _) = _
          rw [if_pos hn]
        · rcases w3 n t ht with hy | ⟨r, a, b, cc, d⟩
          · simp [hn] at hy
          · refine ⟨r, ?_, b, cc, ?_⟩
            · show (ctl _ _ _ _).reg n = _
              rw [(ctl_frame _ _ _ _).2.2.2.2.2 n hn]; exact a
            · show _ ∨ n ∈ (ctl _ _ _ _).pending.map _
              rw [(ctl_frame _ _ _ _).1]; exact d
    · rw [if_pos he, ctl_err _ _ _ _ he]
      exact (Ends.close i w3 hlive' hd' (fun s => s.err) c.acts').mono (fun a ha => by simp [ha])
  · rw [e]
    exact .inr ⟨rfl, a, by simp [ha], hl⟩

theorem serverEvent_ends {s : St} {v : View} {ud : Nat} {ev : Ep} {r : Reg} (h : Good s v)
    (hr : s.reg (fdOf ud) = some r) (hu : r.ud = ud) (hk : kindOf ud = some .server) (hd : s.ended = false)
    (c : Choice) : Ends (serverEvent s ud ev c) (c.acts ++ c.acts') := by
  obtain ⟨ho, hf, h64, hcase⟩ := h.1.reg _ _ hr
  rw [hu] at h64 hcase
  rw [hk] at hcase
  have hlive : v.live (fdOf ud) = none := by
    rcases hcase with a | a | a | a
    · have := a.1; cases this
    · exact a.2.1
    all_goals (have := a.1; cases this)
  have say (e : Errno) (he : e ≠ 0) : Good (s.say (.failed (fdOf ud) e)) v :=
    ⟨h.1.say (by rw [View.step, if_pos ⟨ho, hlive, he⟩]), h.2⟩
  unfold serverEvent
  split
  · rename_i he
    exact (Ends.acts (say _ he) hd c.acts).mono (fun a ha => by simp [ha])
  · cases e : newFd s c.accept with
    | error er =>
      have he : er ≠ 0 := by
        revert e
        cases c.accept with
        | error e0 =>
          intro e
          unfold newFd at e
          injection e with e
          rw [← e]
          split
          · decide
          · assumption
        | ok n =>
          intro e
          have e : (if 2 < n ∧ n ≤ 0xffffff ∧ n ∉ s.opened then Except.ok n else Except.error EMFILE) = Except.error er := e
          split at e
          · cases e
          · injection e with e; rw [← e]; decide
      exact (Ends.acts (say _ he) hd c.acts).mono (fun a ha => by simp [ha])
    | ok fd => exact accepted_ends h hd (newFd_ok e) ud c

/-! ## The end -/

theorem closeAll_base {s : St} {v : View} {l m : List Nat} (h : Base s v (l ++ m)) :
    ∃ s' v', closeAll s l = .ok s' ∧ Base s' v' m ∧ s'.signalFd = s.signalFd := by
  induction l generalizing s v with
  | nil => exact ⟨s, v, rfl, h, rfl⟩
  | cons fd l ih =>
    obtain ⟨s1, e, hb, es⟩ := Base.close (l := l ++ m) h
    obtain ⟨s2, v2, e2, hb2, eg⟩ := ih hb
    refine ⟨s2, v2, ?_, hb2, ?_⟩
    · rw [closeAll, e]; exact e2
    · rw [eg, es]

theorem finish_ends {s : St} {v : View} (h : Inv s v []) :
    ∃ s' v', finish s = .ok s' ∧ s'.ended = true ∧ Base s' v' [] := by
  obtain ⟨s1, v1, e, hb, eg⟩ := closeAll_base h.base
  unfold finish
  rw [e]
  dsimp only [R.bind]
  have hb' : Base { s1 with ended := true, mustClose := [] } v1 (s.sig ++ []) :=
    ⟨hb.reads, hb.opened, hb.mine, hb.loop, hb.onodup, hb.mnodup, hb.lnodup, hb.big⟩
  rw [List.append_nil] at hb'
  unfold St.sig at hb'
  by_cases hs : s.signalFd = 0
  · rw [if_pos hs] at hb'
    rw [if_neg (by rw [eg]; simp [hs])]
    exact ⟨_, v1, rfl, rfl, hb'⟩
  · rw [if_neg hs] at hb'
    rw [if_pos (by rw [eg]; exact hs)]
    obtain ⟨s2, e2, hb2, es⟩ := Base.close hb'
    rw [← eg] at e2
    exact ⟨s2, _, e2, by rw [es], hb2⟩

theorem handle_ends {s : St} {v : View} (h : Good s v) (hd : s.ended = false) (c : Choice) :
    Ends (handle s c) (c.acts ++ c.acts') := by
  unfold handle
  cases hpend : s.pending with
  | nil => exact .inl ⟨s, rfl, .inl ⟨hd, v, h⟩⟩
  | cons p rest =>
    obtain ⟨ud, ev⟩ := p
    dsimp only
    obtain ⟨hm, r, hr, hu⟩ := h.1.pend (ud, ev) (by rw [hpend]; simp)
    have hm : fdOf ud ∈ s.mustClose ++ s.sig := hm
    have hr : s.reg (fdOf ud) = some r := hr
    have hu : r.ud = ud := hu
    have hnd := h.1.pnodup
    rw [hpend, List.map_cons, List.nodup_cons] at hnd
    have hp : ∀ p ∈ rest, fdOf p.1 ≠ fdOf ud := fun p hp hc => hnd.1 (List.mem_map.2 ⟨p, hp, hc⟩)
    have i : Inv { s with pending := rest } v [] :=
      ⟨⟨h.1.base.reads, h.1.base.opened, h.1.base.mine, h.1.base.loop, h.1.base.onodup, h.1.base.mnodup, h.1.base.lnodup,
        h.1.base.big⟩, h.1.reg, h.1.live, fun p hp => h.1.pend p (by rw [hpend]; simp [hp]), hnd.2⟩
    have w : Watched { s with pending := rest } v [fdOf ud] := by
      intro n t ht
      rcases h.2 n t ht with hy | ⟨r, a, b, cc, d⟩
      · cases hy
      · by_cases hn : n = fdOf ud
        · exact .inl (by simp [hn])
        · refine .inr ⟨r, a, b, cc, ?_⟩
          rcases d with d | d
          · exact .inl d
          · right
            rw [hpend, List.map_cons, List.mem_cons] at d
            exact d.resolve_left hn
    have hcase := (h.1.reg _ _ hr).2.2.2
    rw [hu] at hcase
    have g : kindOf ud ≠ some .socket → Good { s with pending := rest } v := by
      intro hk
      refine ⟨i, ?_⟩
      intro n t ht
      rcases w n t ht with hy | hy
      · exfalso
        have hn : n = fdOf ud := by simpa using hy
        subst hn
        have ht : v.live (fdOf ud) = some t := ht
        rcases hcase with a | a | a | a
        · exact hk a.1
        all_goals (rw [a.2.1] at ht; cases ht)
      · exact .inr hy
    rcases hcase with a | a | a | a
    · rw [a.1]
      exact socketEvent_ends i w hr hu a.1 hm hp hd c
    · rw [a.1]
      exact serverEvent_ends (g (by rw [a.1]; decide)) hr hu a.1 hd c
    · rw [a.1]
      have gg := g (by rw [a.1]; decide)
      refine (Ends.acts (s := ({ s with pending := rest } : St).say (.watched (fdOf ud))) (v := v) ⟨gg.1.say ?_, gg.2⟩ hd c.acts).mono
        (fun a ha => by simp [ha])
      rw [View.step, if_pos ⟨(h.1.reg _ _ hr).1, a.2.1⟩]
    · rw [a.1]
      obtain ⟨s', v', e, he, hb⟩ := finish_ends i
      exact .inl ⟨s', e, .inr ⟨he, v', hb⟩⟩

end Verif.Ev
