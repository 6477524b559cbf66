import Verif.EvInv
/-! # What callbacks do keeps the invariant -/
namespace Verif.Ev

/-- A new descriptor closed at once. -/
theorem createClose_inv {s : St} {v : View} {x : List Nat} (h : Inv s v x) {fd : Nat}
    (hf : 2 < fd ∧ fd ≤ 0xffffff ∧ fd ∉ s.opened) :
    ∃ s' v', close (s.create fd) (fd : Int) = .ok s' ∧ Inv s' v' x ∧ Frame s s' v v' := by
  have hfree := owner_free h.base hf.2.2
  obtain ⟨h1, f1, hl, hr, _, _⟩ := h.create hf
  obtain ⟨s', e, h2, _, ep, es, ee, ed, em, er⟩ := h1.close hl (fun _ => hand_fresh h1)
  refine ⟨s', _, e, h2, ?_⟩
  refine ⟨ep, es, ee, ed, ?_, ?_, ?_, ?_⟩
  · intro n hn
    have hne : n ≠ fd := fun hc => by subst hc; rw [hfree] at hn; cases hn
    refine ⟨?_, rfl, er n hne⟩
    show (if n = fd then Owner.free else if n = fd then Owner.loop else v.owner n) = .loop
    rw [if_neg hne, if_neg hne]; exact hn
  · intro n hn; rw [em]; exact hn
  · intro n _ hm; rw [em] at hm; exact hm
  · intro n hn hm
    exfalso
    apply hn
    have hm : (if n = fd then Owner.free else if n = fd then Owner.loop else v.owner n) = .loop := hm
    by_cases e : n = fd
    · rw [if_pos e] at hm; cases hm
    · rwa [if_neg e, if_neg e] at hm

theorem pending_ne {s : St} {v : View} {x : List Nat} {fd : Nat} (h : Inv s v (fd :: x)) :
    ∀ p ∈ s.pending, fdOf p.1 ≠ fd :=
  fun p hp hc => hand_fresh h (hc ▸ (h.pend p hp).1)

/-- A new descriptor put on the interest list and into `must_close`. -/
theorem createAdd_inv {s : St} {v : View} {x : List Nat} (h : Inv s v x) {fd : Nat}
    (hf : 2 < fd ∧ fd ≤ 0xffffff ∧ fd ∉ s.opened) (k : Kind) (hk : k = .server ∨ k = .watch) (ud : Nat)
    (hud : kindOf ud = some k ∧ fdOf ud = fd ∧ ud < 2 ^ 64) (r : Reg) (hr : r.ud = ud) :
    ∃ v', Inv ((ctl (s.create fd) fd r 0).mustAdd fd) v' x ∧ Frame s ((ctl (s.create fd) fd r 0).mustAdd fd) v v' := by
  have hfree := owner_free h.base hf.2.2
  obtain ⟨h1, f1, hl, hreg, hnm, hsf⟩ := h.create hf
  have hown : (v.own fd .loop).owner fd = .loop := by show (if fd = fd then _ else _) = _; rw [if_pos rfl]
  have h2 : Inv (ctl (s.create fd) fd r 0) (v.own fd .loop) (fd :: x) := by
    refine h1.ctl hown ⟨by rw [hr]; exact hud.2.1, by rw [hr]; exact hud.2.2, ?_⟩ (pending_ne h1)
    rw [hr]
    rcases hk with rfl | rfl
    · exact .inr (.inl ⟨hud.1, hl, hsf⟩)
    · exact .inr (.inr (.inl ⟨hud.1, hl, hsf⟩))
  obtain ⟨h3, em⟩ := h2.mustAdd
  refine ⟨_, h3, ?_⟩
  obtain ⟨c1, c2, c3, c4, c5, c6⟩ := ctl_frame (s.create fd) fd r 0
  refine ⟨c1, c2, c3, c4, ?_, ?_, ?_, ?_⟩
  · intro n hn
    have hne : n ≠ fd := fun hc => by subst hc; rw [hfree] at hn; cases hn
    exact ⟨(f1.owner n hn).1, rfl, c6 n hne⟩
  · intro n hn
    rw [em, c5]
    exact List.mem_cons_of_mem _ hn
  · intro n hn hm
    rw [em, c5] at hm
    rcases List.mem_cons.1 hm with e | e
    · subst e; rw [hfree] at hn; cases hn
    · exact e
  · exact f1.noconn

theorem ctl_err (s : St) (fd : Nat) (r : Reg) (e : Errno) (h : e ≠ 0) : ctl s fd r e = s := by
  unfold ctl; rw [if_neg h]

/-- Does a call listen? -/
def Act.listens : Act → Bool
  | .listen .. => true
  | _ => false

theorem act_spec {s : St} {v : View} {x : List Nat} (h : Inv s v x) (a : Act) :
    (∃ s' v', act s a = .ok s' ∧ Inv s' v' x ∧ Frame s s' v v') ∨
    (act s a = .fault .closeLow ∧ a.listens = true) := by
  cases a with
  | openOwn fd =>
    left
    cases e : newFd s (.ok fd) with
    | error er => exact ⟨s, v, by rw [act, e], h, Frame.refl s v⟩
    | ok fd' =>
      have hf := newFd_ok e
      have hfree := owner_free h.base hf.2.2
      have ho (n : Nat) : (v.own fd' .program).owner n = .loop ↔ v.owner n = .loop := by
        show (if n = fd' then Owner.program else v.owner n) = .loop ↔ _
        by_cases en : n = fd'
        · subst en; rw [if_pos rfl, hfree]; simp
        · rw [if_neg en]
      refine ⟨_, v.own fd' .program, by rw [act, e], ?_, ?_⟩
      · refine ⟨⟨h.base.reads.snoc (by rw [View.step, if_pos hfree]), ?_, ?_, ?_, ?_, ?_, h.base.lnodup, h.base.big⟩, ?_, ?_,
          h.pend, h.pnodup⟩
        · intro n
          show n ∈ fd' :: s.opened ↔ (if n = fd' then Owner.program else v.owner n) ≠ .free
          by_cases e : n = fd'
          · simp [e]
          · rw [if_neg e, ← h.base.opened n]; simp [e]
        · intro n
          show n ∈ fd' :: s.mine ↔ (if n = fd' then Owner.program else v.owner n) = .program
          by_cases e : n = fd'
          · simp [e]
          · rw [if_neg e, ← h.base.mine n]; simp [e]
        · intro n; rw [ho n]; exact h.base.loop n
        · exact List.nodup_cons.2 ⟨hf.2.2, h.base.onodup⟩
        · exact List.nodup_cons.2 ⟨fun hm => hf.2.2 ((h.base.opened fd').2 (by rw [(h.base.mine fd').1 hm]; simp)),
            h.base.mnodup⟩
        · intro n r hr
          obtain ⟨a, b⟩ := h.reg n r hr
          exact ⟨(ho n).2 a, b⟩
        · intro n t ht
          obtain ⟨a, b⟩ := h.live n t ht
          exact ⟨(ho n).2 a, b⟩
      · exact ⟨rfl, rfl, rfl, rfl, fun n hn => ⟨(ho n).2 hn, rfl, rfl⟩, fun _ hn => hn, fun _ _ hm => hm,
          fun n hn hm => absurd ((ho n).1 hm) hn⟩
  | closeOwn fd =>
    left
    by_cases hc : fd ∈ s.mine ∧ 2 < fd
    · have hp := (h.base.mine fd).1 hc.1
      have ho (n : Nat) : (v.own fd .free).owner n = .loop ↔ v.owner n = .loop := by
        show (if n = fd then Owner.free else v.owner n) = .loop ↔ _
        by_cases en : n = fd
        · subst en; rw [if_pos rfl, hp]; simp
        · rw [if_neg en]
      refine ⟨_, v.own fd .free, by rw [act, if_pos hc], ?_, ?_⟩
      · refine ⟨⟨h.base.reads.snoc (by rw [View.step, if_pos hp]), ?_, ?_, ?_, h.base.onodup.erase fd,
          h.base.mnodup.erase fd, h.base.lnodup, h.base.big⟩, ?_, ?_, h.pend, h.pnodup⟩
        · intro n
          show n ∈ s.opened.erase fd ↔ (if n = fd then Owner.free else v.owner n) ≠ .free
          by_cases e : n = fd
          · subst e; simp [h.base.onodup.mem_erase_iff]
          · rw [if_neg e, ← h.base.opened n, h.base.onodup.mem_erase_iff]; simp [e]
        · intro n
          show n ∈ s.mine.erase fd ↔ (if n = fd then Owner.free else v.owner n) = .program
          by_cases e : n = fd
          · subst e; simp [h.base.mnodup.mem_erase_iff]
          · rw [if_neg e, ← h.base.mine n, h.base.mnodup.mem_erase_iff]; simp [e]
        · intro n; rw [ho n]; exact h.base.loop n
        · intro n r hr
          obtain ⟨a, b⟩ := h.reg n r hr
          exact ⟨(ho n).2 a, b⟩
        · intro n t ht
          obtain ⟨a, b⟩ := h.live n t ht
          exact ⟨(ho n).2 a, b⟩
      · exact ⟨rfl, rfl, rfl, rfl, fun n hn => ⟨(ho n).2 hn, rfl, rfl⟩, fun _ hn => hn, fun _ _ hm => hm,
          fun n hn hm => absurd ((ho n).1 hm) hn⟩
    · exact ⟨s, v, by rw [act, if_neg hc], h, Frame.refl s v⟩
  | listen w sock b c =>
    cases e : newFd s sock with
    | error er =>
      right
      refine ⟨?_, rfl⟩
      rw [act, listen, e]
      rfl
    | ok fd =>
      left
      have hf := newFd_ok e
      have ea : act s (.listen w sock b c) = listenWith (s.create fd) w fd b c := by rw [act, listen, e]
      rw [ea]
      by_cases hb : b = 0
      · obtain ⟨ud, hud⟩ := pack_some .server fd (optsByte w) 0 hf.2.1
        obtain ⟨u1, u2, _, _, u5⟩ := pack_unpack _ _ _ _ _ hud
        by_cases hc : c = 0
        · subst hc
          obtain ⟨v', i, f⟩ := createAdd_inv h hf .server (.inl rfl) ud ⟨u1, u2, u5⟩ ⟨ud, true, false, false, false, true⟩ rfl
          refine ⟨_, v', ?_, i, f⟩
          rw [listenWith, if_neg (by simp [hb]), hud]
          rfl
        · obtain ⟨s', v', es, i, f⟩ := createClose_inv h hf
          refine ⟨s', v', ?_, i, f⟩
          rw [listenWith, if_neg (by simp [hb]), hud]
          dsimp only
          rw [if_pos hc, ctl_err _ _ _ _ hc, es]
      · obtain ⟨s', v', es, i, f⟩ := createClose_inv h hf
        exact ⟨s', v', by rw [listenWith, if_pos hb, es], i, f⟩
  | watch i a c =>
    left
    cases e : newFd s i with
    | error er => exact ⟨s, v, by rw [act, watch, e], h, Frame.refl s v⟩
    | ok fd =>
      have hf := newFd_ok e
      obtain ⟨ud, hud⟩ := pack_some .watch fd 0 0 hf.2.1
      obtain ⟨u1, u2, _, _, u5⟩ := pack_unpack _ _ _ _ _ hud
      by_cases ha : a = 0
      · by_cases hc : c = 0
        · subst hc
          obtain ⟨v', i, f⟩ := createAdd_inv h hf .watch (.inr rfl) ud ⟨u1, u2, u5⟩ ⟨ud, true, false, false, false, true⟩ rfl
          refine ⟨_, v', ?_, i, f⟩
          rw [act, watch, e]
          dsimp only
          rw [hud]
          dsimp only
          rw [if_neg (by simp [ha]), if_neg (by simp)]
        · obtain ⟨s', v', es, i, f⟩ := createClose_inv h hf
          refine ⟨s', v', ?_, i, f⟩
          rw [act, watch, e]
          dsimp only
          rw [hud]
          dsimp only
          rw [if_neg (by simp [ha]), if_pos hc, ctl_err _ _ _ _ hc, es]
      · obtain ⟨s', v', es, i, f⟩ := createClose_inv h hf
        refine ⟨s', v', ?_, i, f⟩
        rw [act, watch, e]
        dsimp only
        rw [hud]
        dsimp only
        rw [if_pos ha, es]

theorem acts_spec {s : St} {v : View} {x : List Nat} (h : Inv s v x) (as : List Act) :
    (∃ s' v', acts s as = .ok s' ∧ Inv s' v' x ∧ Frame s s' v v') ∨
    (acts s as = .fault .closeLow ∧ ∃ a ∈ as, a.listens = true) := by
  induction as generalizing s v with
  | nil => exact .inl ⟨s, v, rfl, h, Frame.refl s v⟩
  | cons a as ih =>
    rcases act_spec h a with ⟨s', v', e, i, f⟩ | ⟨e, hl⟩
    · rcases ih i with ⟨s'', v'', e', i', f'⟩ | ⟨e', b, hb, hl⟩
      · exact .inl ⟨s'', v'', by rw [acts, e]; exact e', i', f.trans f'⟩
      · exact .inr ⟨by rw [acts, e]; exact e', b, by simp [hb], hl⟩
    · exact .inr ⟨by rw [acts, e]; rfl, a, by simp, hl⟩

end Verif.Ev
