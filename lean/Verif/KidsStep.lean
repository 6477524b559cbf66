import Verif.KidsActs
/-! # Events of children keep an event loop in order -/
namespace Verif.Kids
open Verif.Ev (Owner Ep Reg EAGAIN)

section
variable {dbg : Bool} {lp : Nat} {s s' : St} {v v' : View} {recs recs' : Nat → Option Rec} {cur : Option (Nat × BitVec 128)}

theorem Inv.unsub (h : Inv dbg lp s v recs cur) {t k n : Nat} {r : Rec} {w : BitVec 128} (e : recs t = some r) (hk : k < 4)
    (hn : r.fd k = n) (h0 : n ≠ 0) (hc : curIs cur t) (hw : Fields w fun j => if j = k then 0 else r.fd j) :
    ∃ s', unsubscribeAndClose s n = .ok s' ∧ Inv dbg lp s' (v.drop n) (dropFd recs t k r) (some (t, w)) ∧
      s' = { s with mustClose := s.mustClose.erase n, opened := s.opened.erase n, mine := s.mine.erase n,
                    reg := fun m => if m = n then none else s.reg m, trace := s.trace ++ [.close n] } := by
  have hm : n ∈ s.mustClose := (h.kin.must n).2 (Or.inr ⟨h0, t, r, k, e, hk, hn⟩)
  have b : Base { s with mustClose := s.mustClose.erase n } v s.mustClose := h.base.other rfl rfl rfl
  obtain ⟨s', e1, b1, e2⟩ := b.close hm
  refine ⟨s', by unfold unsubscribeAndClose; rw [if_pos hm]; exact e1, ⟨?_, ?_⟩, e2⟩
  · rw [show s'.mustClose = s.mustClose.erase n by rw [e2]]; exact b1
  · exact h.kin.closeFd e hk hn hc hw h.base.lnodup (by rw [e2]) (by rw [e2]) (by rw [e2]) (by rw [e2]) (by rw [e2]) (by rw [e2])

/-- The handler of an event of the child in slot `t`. -/
structure LocInv (dbg : Bool) (lp t : Nat) (l : Loc) (v : View) (recs : Nat → Option Rec) (r : Rec) : Prop where
  inv : Inv dbg lp l.s v recs (some (t, l.w))
  here : recs t = some r
  fields : Fields l.w r.fd

/-- What stays the same while an event is handled, and what happens meanwhile: a descriptor of the child is still there, or was closed. -/
structure LocFrame (l l' : Loc) (r r' : Rec) : Prop where
  pending : l'.s.pending = l.s.pending
  ended : l'.s.ended = l.s.ended
  err : l'.err = l.err
  pid : r'.pid = r.pid
  trace : ∃ ts, l'.s.trace = l.s.trace ++ ts ∧ ∀ k < 4, r.fd k ≠ 0 → r'.fd k = r.fd k ∨ Obs.close (r.fd k) ∈ ts

theorem LocFrame.refl (l : Loc) (r : Rec) : LocFrame l l r r := ⟨rfl, rfl, rfl, rfl, [], (List.append_nil _).symm, fun _ _ _ => Or.inl rfl⟩

theorem LocFrame.trans {l l' l'' : Loc} {r r' r'' : Rec} (h : LocFrame l l' r r') (h' : LocFrame l' l'' r' r'') : LocFrame l l'' r r'' :=
  ⟨h'.pending.trans h.pending, h'.ended.trans h.ended, h'.err.trans h.err, h'.pid.trans h.pid, by
    obtain ⟨a, ha, ha'⟩ := h.trace
    obtain ⟨b, hb, hb'⟩ := h'.trace
    refine ⟨a ++ b, by rw [hb, ha, List.append_assoc], fun k hk h0 => ?_⟩
    rcases ha' k hk h0 with e | e
    · rcases hb' k hk (by rw [e]; exact h0) with e' | e'
      · exact Or.inl (e'.trans e)
      · exact Or.inr (List.mem_append_right _ (by rw [← e]; exact e'))
    · exact Or.inr (List.mem_append_left _ e)⟩

theorem curIs_some (t : Nat) (w : BitVec 128) : curIs (some (t, w)) t := by
  intro u w' e
  injection e with e; injection e with e1 _
  exact e1.symm

theorem closeStream_ok {t : Nat} {l : Loc} {r : Rec} (h : LocInv dbg lp t l v recs r) {i : Nat} (hi : i < 3) :
    ∃ l' v' recs' r', closeStream l i = .ok l' ∧ LocInv dbg lp t l' v' recs' r' ∧ LocFrame l l' r r' ∧
      r'.fd = fun k => if k = i + 1 then 0 else r.fd k := by
  have hf := h.fields.clear hi
  have hg : getFd l.w i = r.fd (i + 1) := h.fields.2 i hi
  unfold closeStream
  dsimp only
  rw [hg]
  by_cases h0 : r.fd (i + 1) = 0
  · rw [if_neg (fun c => c h0)]
    have same : (fun k => if k = i + 1 then 0 else r.fd k) = r.fd := by
      funext k
      by_cases c : k = i + 1
      · rw [if_pos c, c, h0]
      · rw [if_neg c]
    rw [same] at hf ⊢
    exact ⟨_, v, recs, r, rfl, ⟨⟨h.inv.base, h.inv.kin.setCur h.here (curIs_some _ _) hf⟩, h.here, hf⟩,
      ⟨rfl, rfl, rfl, rfl, [], (List.append_nil _).symm, fun _ _ _ => Or.inl rfl⟩, rfl⟩
  · rw [if_pos h0]
    obtain ⟨s', e1, h1, e2⟩ := h.inv.unsub h.here (k := i + 1) (by omega) rfl h0 (curIs_some _ _) hf
    rw [e1]
    refine ⟨_, _, _, ⟨r.pid, fun k => if k = i + 1 then 0 else r.fd k⟩, rfl, ⟨h1, ?_, hf⟩,
      ⟨?_, ?_, rfl, rfl, [.close (r.fd (i + 1))], ?_, fun k _ _ => ?_⟩, rfl⟩
    · unfold dropFd; rw [if_pos rfl]
    · show s'.pending = _; rw [e2]
    · show s'.ended = _; rw [e2]
    · show s'.trace = _; rw [e2]
    · by_cases c : k = i + 1
      · subst c; exact Or.inr (List.mem_singleton.2 rfl)
      · exact Or.inl (if_neg c)

theorem closeStreams_ok {t : Nat} {l : Loc} {r : Rec} (h : LocInv dbg lp t l v recs r) :
    ∃ l' v' recs' r', closeStreams l = .ok l' ∧ LocInv dbg lp t l' v' recs' r' ∧ LocFrame l l' r r' ∧
      r'.fd 0 = r.fd 0 ∧ ∀ k < 4, k ≠ 0 → r'.fd k = 0 := by
  obtain ⟨l1, v1, c1, r1, e1, h1, f1, d1⟩ := closeStream_ok h (i := 0) (by omega)
  obtain ⟨l2, v2, c2, r2, e2, h2, f2, d2⟩ := closeStream_ok h1 (i := 1) (by omega)
  obtain ⟨l3, v3, c3, r3, e3, h3, f3, d3⟩ := closeStream_ok h2 (i := 2) (by omega)
  refine ⟨l3, v3, c3, r3, ?_, h3, f1.trans (f2.trans f3), ?_, fun k hk h0 => ?_⟩
  · unfold closeStreams
    rw [e1]
    show (closeStream l1 1).bind _ = _
    rw [e2]
    exact e3
  · rw [d3, d2, d1]; rfl
  · rw [d3, d2, d1]
    have : k = 1 ∨ k = 2 ∨ k = 3 := by omega
    rcases this with rfl | rfl | rfl <;> rfl

/-- The child in a slot is there, for the reader too. -/
theorem LocInv.kid {t : Nat} {l : Loc} {r : Rec} (h : LocInv dbg lp t l v recs r) : v.kid r.pid = true :=
  (h.inv.kin.vkid _).2 ⟨t, r, h.here, rfl⟩

theorem LocInv.say {t : Nat} {l : Loc} {r : Rec} (h : LocInv dbg lp t l v recs r) {o : Obs} (st : v.Step o v) :
    LocInv dbg lp t { l with s := l.s.say o } v recs r :=
  ⟨⟨h.inv.base.say st rfl, h.inv.kin.other rfl rfl rfl rfl rfl rfl rfl rfl⟩, h.here, h.fields⟩

theorem readStream_ok {t : Nat} {l : Loc} {r : Rec} (h : LocInv dbg lp t l v recs r) {i : Nat} (hi : i < 3) (e : Nat)
    (he : e = 0 ∨ e = EAGAIN) (bytes : Nat) :
    ∃ l' v' recs' r', readStream l r.pid i e bytes = .ok l' ∧ LocInv dbg lp t l' v' recs' r' ∧ LocFrame l l' r r' := by
  have hg : getFd l.w i = r.fd (i + 1) := h.fields.2 i hi
  unfold readStream
  dsimp only
  rw [hg]
  by_cases h0 : r.fd (i + 1) = 0
  · rw [if_pos h0]
    exact ⟨l, v, recs, r, rfl, h, .refl l r⟩
  · rw [if_neg h0]
    have hm : r.fd (i + 1) ∈ l.s.mustClose := (h.inv.kin.must _).2 (Or.inr ⟨h0, t, r, i + 1, h.here, by omega, rfl⟩)
    have h1 : LocInv dbg lp t { l with s := l.s.say (.read r.pid i (r.fd (i + 1))), wants := l.wants ||| (1 <<< i) } v recs r := by
      have := h.say (.read v r.pid i (r.fd (i + 1)) h.kid ((h.inv.base.loop _).1 hm)
        ((h.inv.kin.vpipe _ _ _).2 ⟨h0, by omega, t, r, h.here, rfl, rfl⟩))
      exact ⟨this.inv, this.here, this.fields⟩
    have f1 : LocFrame l { l with s := l.s.say (.read r.pid i (r.fd (i + 1))), wants := l.wants ||| (1 <<< i) } r r :=
      ⟨rfl, rfl, rfl, rfl, _, rfl, fun _ _ _ => Or.inl rfl⟩
    rcases he with rfl | rfl
    · rw [if_neg (fun c => c rfl)]
      by_cases hb : bytes = 0
      · rw [if_pos hb]
        obtain ⟨l', v', c', r', e1, h2, f, _⟩ := closeStream_ok h1 hi
        exact ⟨l', v', c', r', e1, h2, f1.trans f⟩
      · rw [if_neg hb]
        exact ⟨_, v, recs, r, rfl, h1, f1⟩
    · rw [if_pos (by decide)]
      refine ⟨_, v, recs, r, rfl, ⟨h1.inv, h1.here, h1.fields⟩, ⟨rfl, rfl, ?_, rfl, _, rfl, fun _ _ _ => Or.inl rfl⟩⟩
      exact if_neg (c := EAGAIN ≠ EAGAIN ∧ l.err = 0) (t := EAGAIN) (fun c => c.1 rfl)

theorem calls_ok {t : Nat} {l : Loc} {r : Rec} (h : LocInv dbg lp t l v recs r) (cs : List Call)
    (hc : ∀ b e n, Call.read b e n ∈ cs → e = 0 ∨ e = EAGAIN) :
    ∃ l' v' recs' r', calls dbg l r.pid cs = .ok l' ∧ LocInv dbg lp t l' v' recs' r' ∧ LocFrame l l' r r' := by
  induction cs generalizing l v recs r with
  | nil => exact ⟨l, v, recs, r, rfl, h, .refl l r⟩
  | cons c cs ih =>
    have hc' := fun b e n hm => hc b e n (List.mem_cons_of_mem _ hm)
    cases c with
    | read b e n =>
      obtain ⟨l1, v1, c1, r1, e1, h1, f1⟩ := readStream_ok h (i := if b then 2 else 1) (by split <;> omega) e
        (hc b e n (List.mem_cons_self ..)) n
      obtain ⟨l2, v2, c2, r2, e2, h2, f2⟩ := ih h1 hc'
      refine ⟨l2, v2, c2, r2, ?_, h2, f1.trans f2⟩
      unfold calls
      rw [e1]
      rw [f1.pid] at e2
      exact e2
    | act a =>
      obtain ⟨s1, v1, c1, e1, h1, f1⟩ := h.inv.act (by
        intro u w hh
        injection hh with hh; injection hh with hh _
        subst hh
        exact ⟨r, h.here⟩) a
      obtain ⟨l2, v2, c2, r2, e2, h2, f2⟩ := ih (l := { l with s := s1 }) ⟨h1, f1.recs _ _ h.here, h.fields⟩ hc'
      obtain ⟨ts, hts⟩ := f1.trace
      have f1' : LocFrame l { l with s := s1 } r r := ⟨f1.pending, f1.ended, rfl, rfl, ts, hts, fun _ _ _ => Or.inl rfl⟩
      refine ⟨l2, v2, c2, r2, ?_, h2, f1'.trans f2⟩
      unfold calls
      rw [e1]
      exact e2

theorem served_ok {t : Nat} {l : Loc} {r : Rec} (h : LocInv dbg lp t l v recs r) (he : l.err = 0) (c : Choice) :
    ∃ s', served dbg l t r.pid c = .ok s' ∧ Inv dbg lp s' v recs none ∧ s'.pending = l.s.pending ∧ s'.ended = l.s.ended ∧ s'.trace = l.s.trace := by
  unfold served
  rw [if_neg (fun c => c he)]
  dsimp only
  generalize hw : forget (forget (forget l.w l.wants 0) l.wants 1) l.wants 2 = w
  have hf : Fields w r.fd := by
    rw [← hw]; exact ((h.fields.forget _ _).forget _ _).forget _ _
  obtain ⟨m, p, g1, g2, k⟩ := h.inv.kin.commit h.here (curIs_some _ _) hf
  rw [g1]
  dsimp only
  rw [g2]
  dsimp only
  have i1 : Inv dbg lp { l.s with pool := p } v recs none := ⟨h.inv.base.other rfl rfl rfl, k⟩
  obtain ⟨rg, e1, i2⟩ := i1.wakeUp h.here l.wants c.refused
  rw [hf.1, hf.2 0 (by omega), hf.2 1 (by omega), hf.2 2 (by omega)]
  exact ⟨_, e1, i2, rfl, rfl, rfl⟩

theorem streamEvent_ok {t : Nat} {m : Meta} {r : Rec} (h : LocInv dbg lp t ⟨s, m.word, 0, 0⟩ v recs r) (hp : m.tail.toNat = r.pid)
    {i : Nat} (hi : i < 3) (ev : Ep) (he : ev.err = false) (c : Choice) (hc : ∀ b e n, Call.read b e n ∈ c.calls → e = 0 ∨ e = EAGAIN) :
    ∃ s' v' recs', streamEvent dbg s t i m ev c = .ok s' ∧ Inv dbg lp s' v' recs' none ∧ s'.pending = s.pending ∧ s'.ended = s.ended ∧
      ∃ ts, s'.trace = s.trace ++ ts ∧
        ((ev.inn || ev.out) = true → ∃ f : Nat → Bool, f i = true ∧ (.event r.pid (f 0) (f 1) (f 2)) ∈ ts.head?) ∧
        ((ev.hup || ev.rdhup) = true → r.fd (i + 1) ≠ 0 → .close (r.fd (i + 1)) ∈ ts) := by
  unfold streamEvent
  dsimp only
  have hev : Ev.evErr ev = 0 := by unfold Ev.evErr; rw [he]; rfl
  rw [hev, hp]
  -- the handler
  have h1 : ∃ l' v' recs' r', (if (ev.inn || ev.out) = true then
      calls dbg { s := s.say (.event r.pid (isAvailable (setAvailable m.word i) 0) (isAvailable (setAvailable m.word i) 1)
        (isAvailable (setAvailable m.word i) 2)), w := setAvailable m.word i, wants := 0, err := 0 } r.pid c.calls
      else .ok ⟨s, m.word, 0, 0⟩) = .ok l' ∧ LocInv dbg lp t l' v' recs' r' ∧ LocFrame ⟨s, m.word, 0, 0⟩ l' r r' ∧
      ((ev.inn || ev.out) = true → ∃ ts, l'.s.trace = s.trace ++ .event r.pid (isAvailable (setAvailable m.word i) 0)
        (isAvailable (setAvailable m.word i) 1) (isAvailable (setAvailable m.word i) 2) :: ts) := by
    by_cases hx : (ev.inn || ev.out) = true
    · rw [if_pos hx]
      have hav : (isAvailable (setAvailable m.word i) 0 || isAvailable (setAvailable m.word i) 1 ||
          isAvailable (setAvailable m.word i) 2) = true := by
        have := isAvailable_set m.word hi
        have hh : i = 0 ∨ i = 1 ∨ i = 2 := by omega
        rcases hh with rfl | rfl | rfl <;> rw [this] <;> simp
      have hf := h.fields.setAvailable i
      have hs : LocInv dbg lp t { s := s, w := setAvailable m.word i, wants := 0, err := 0 } v recs r :=
        ⟨⟨h.inv.base, h.inv.kin.setCur h.here (curIs_some _ _) hf⟩, h.here, hf⟩
      obtain ⟨l', v', c', r', e1, h2, f⟩ := calls_ok (hs.say (.event v r.pid _ _ _ hs.kid hav)) c.calls hc
      obtain ⟨ts, hts, hts'⟩ := f.trace
      have hts2 : l'.s.trace = s.trace ++ .event r.pid (isAvailable (setAvailable m.word i) 0)
        (isAvailable (setAvailable m.word i) 1) (isAvailable (setAvailable m.word i) 2) :: ts := by
        rw [hts]
        show (s.trace ++ [_]) ++ ts = _
        rw [List.append_assoc]; rfl
      refine ⟨l', v', c', r', e1, h2, ⟨f.pending, f.ended, f.err, f.pid, _, hts2, fun k hk h0 => ?_⟩, fun _ => ⟨ts, hts2⟩⟩
      rcases hts' k hk h0 with e | e
      · exact Or.inl e
      · exact Or.inr (List.mem_cons_of_mem _ e)
    · rw [if_neg hx]
      exact ⟨_, v, recs, r, rfl, h, .refl _ r, fun c => absurd c hx⟩
  obtain ⟨l1, v1, c1, r1, e1, h1, f1, x1⟩ := h1
  rw [e1]
  unfold R.bind
  dsimp only
  have h2 : ∃ l' v' recs' r', (if (ev.hup || ev.rdhup) = true then closeStream l1 i else .ok l1) = .ok l' ∧
      LocInv dbg lp t l' v' recs' r' ∧ LocFrame l1 l' r1 r' ∧ ((ev.hup || ev.rdhup) = true → r'.fd (i + 1) = 0) := by
    by_cases hx : (ev.hup || ev.rdhup) = true
    · rw [if_pos hx]
      obtain ⟨l', v', c', r', e1, h2, f, d⟩ := closeStream_ok h1 hi
      exact ⟨l', v', c', r', e1, h2, f, fun _ => by rw [d]; exact if_pos rfl⟩
    · rw [if_neg hx]
      exact ⟨_, v1, c1, r1, rfl, h1, .refl _ r1, fun c => absurd c hx⟩
  obtain ⟨l2, v2, c2, r2, e2, h2, f2, x2⟩ := h2
  rw [e2]
  dsimp only
  have ferr := (f1.trans f2).err
  obtain ⟨s', e3, h3, q1, q2, q3⟩ := served_ok h2 ferr c
  rw [f2.pid, f1.pid] at e3
  obtain ⟨ts, hts, hts'⟩ := (f1.trans f2).trace
  refine ⟨s', v2, c2, e3, h3, q1.trans (f1.trans f2).pending, q2.trans (f1.trans f2).ended, ts, q3.trans hts, fun hx => ?_, fun hx h0 => ?_⟩
  · obtain ⟨ts1, hts1⟩ := x1 hx
    obtain ⟨ts2, hts2, _⟩ := f2.trace
    refine ⟨fun j => isAvailable (setAvailable m.word i) j, isAvailable_set m.word hi, ?_⟩
    rw [hts2, hts1] at hts
    have hts : (s.trace ++ .event r.pid (isAvailable (setAvailable m.word i) 0)
        (isAvailable (setAvailable m.word i) 1) (isAvailable (setAvailable m.word i) 2) :: ts1) ++ ts2 = s.trace ++ ts := hts
    rw [List.append_assoc] at hts
    rw [← List.append_cancel_left hts]
    rfl
  · rcases hts' (i + 1) (by omega) h0 with e | e
    · exact absurd (e.symm.trans (x2 hx)) h0
    · exact e

theorem exited_ok {t : Nat} {m : Meta} {r : Rec} (h : LocInv dbg lp t ⟨s, m.word, 0, 0⟩ v recs r) (hp : m.tail.toNat = r.pid)
    (hpend : ∀ p ∈ s.pending, Ev.fdOf p.1 ≠ t) (c : Choice) :
    ∃ s' v' recs', exited dbg s t m 0 c = .ok s' ∧ Inv dbg lp s' v' recs' none ∧ s'.pending = s.pending ∧ s'.ended = s.ended ∧
      ∃ ts us, s'.trace = s.trace ++ ts ++ .closed r.pid c.wait :: us := by
  unfold exited
  obtain ⟨l, v1, c1, r1, e1, h1, f1, d0, d1⟩ := closeStreams_ok h
  have p1 := f1.pid
  obtain ⟨ts1, hts1, _⟩ := f1.trace
  have hts1 : l.s.trace = s.trace ++ ts1 := hts1
  rw [e1]
  unfold R.bind
  dsimp only
  rw [h1.fields.1, hp, ← p1]
  have fp : l.s.pending = s.pending := f1.pending
  have fe : l.s.ended = s.ended := f1.ended
  have hz : Fields (packWord 0 0 0 0) fun j => if j = 0 then 0 else r1.fd j := by
    obtain ⟨z0, z1⟩ := Fields.pack (p := 0) (a := 0) (b := 0) (c := 0) (by omega) (by omega) (by omega) (by omega)
    refine ⟨z0, fun i hi => ?_⟩
    rw [z1 i hi]
    dsimp only
    rw [d1 (i + 1) (by omega) (by omega)]
    simp
  -- the pid descriptor
  have hx : ∃ s2 v2 c2 r2 w2, (if r1.fd 0 ≠ 0 then unsubscribeAndClose { l.s with kids := l.s.kids.erase r1.pid } (r1.fd 0)
      else R.ok { l.s with kids := l.s.kids.erase r1.pid }) = .ok s2 ∧
      Inv dbg lp { s2 with kids := l.s.kids } v2 c2 (some (t, w2)) ∧ c2 t = some r2 ∧ r2.pid = r1.pid ∧ (∀ k < 4, r2.fd k = 0) ∧
      s2.kids = l.s.kids.erase r1.pid ∧ s2.pending = l.s.pending ∧ s2.ended = l.s.ended ∧ ∃ ts, s2.trace = l.s.trace ++ ts := by
    by_cases h0 : r1.fd 0 = 0
    · rw [if_neg (fun c => c h0)]
      refine ⟨_, v1, c1, r1, l.w, rfl, h1.inv, h1.here, rfl, fun k hk => ?_, rfl, rfl, rfl, [], (List.append_nil _).symm⟩
      by_cases hk0 : k = 0
      · rw [hk0, h0]
      · exact d1 k hk hk0
    · rw [if_pos h0]
      obtain ⟨s2, g1, g2, g3⟩ := h1.inv.unsub h1.here (k := 0) (by omega) rfl h0 (curIs_some _ _) hz
      have g1' : unsubscribeAndClose { l.s with kids := l.s.kids.erase r1.pid } (r1.fd 0) = .ok { s2 with kids := l.s.kids.erase r1.pid } := by
        have hm : r1.fd 0 ∈ l.s.mustClose := (h1.inv.kin.must _).2 (Or.inr ⟨h0, t, r1, 0, h1.here, by omega, rfl⟩)
        unfold unsubscribeAndClose
        rw [if_pos hm]
        unfold close
        rw [if_pos (h1.inv.base.big _ hm).1, g3]
      refine ⟨_, v1.drop (r1.fd 0), dropFd c1 t 0 r1, ⟨r1.pid, fun j => if j = 0 then 0 else r1.fd j⟩, packWord 0 0 0 0, g1', ?_, by unfold dropFd; rw [if_pos rfl], rfl, fun k hk => ?_, rfl, ?_, ?_, [.close (r1.fd 0)], ?_⟩
      · have : ({ s2 with kids := l.s.kids } : St) = s2 := by rw [g3]
        show Inv dbg lp { s2 with kids := l.s.kids } _ _ _
        rw [this]
        exact g2
      · dsimp only
        split
        · rfl
        · exact d1 k hk (by assumption)
      · show s2.pending = _; rw [g3]
      · show s2.ended = _; rw [g3]
      · show s2.trace = _; rw [g3]
  obtain ⟨s2, v2, c2, r2, w2, g1, g2, g3, g4, g5, g6, g7, g8, ts2, hts2⟩ := hx
  rw [g1]
  dsimp only
  obtain ⟨k1, p, k2, k3⟩ := g2.kin.exit g3 (curIs_some _ _) g5 (by
    intro q hq
    have hq : q ∈ s2.pending := hq
    rw [g7, fp] at hq
    exact hpend q hq)
  have k1' : r1.pid ∈ s2.mustKill := by rw [← g4]; exact k1
  have k2' : Pool.free link dbg s2.pool t = some p := k2
  rw [if_pos k1', k2']
  dsimp only
  have hold : v2.kid r2.pid = true := (g2.kin.vkid _).2 ⟨t, r2, g3, rfl⟩
  have hnopipe : ∀ n i, v2.pipe n ≠ some (r2.pid, i) := by
    intro n i hh
    obtain ⟨y0, y1, u, q, y2, y3, y4⟩ := (g2.kin.vpipe _ _ _).1 hh
    have := g2.kin.pids u q t r2 y2 g3 y3
    subst this
    rw [g3] at y2; injection y2 with y2; subst y2
    exact y0 (y4.symm.trans (g5 _ y1))
  have b3 : Base { s2 with mustKill := s2.mustKill.erase r1.pid, pool := p } v2 s2.mustClose := g2.base.other rfl rfl rfl
  have i3 : Inv dbg lp ({ s2 with mustKill := s2.mustKill.erase r1.pid, pool := p }.say
      (.closed r1.pid (if c.wait ≠ 0 then c.wait else 0))) (v2.setKid r2.pid false) (fun t' => if t' = t then none else c2 t') none := by
    refine ⟨?_, ?_⟩
    · rw [← g4]
      refine Base.say ?_ (.closed v2 r2.pid _ hold hnopipe) rfl
      rw [g4]; exact b3
    · refine k3.other rfl ?_ ?_ rfl rfl rfl rfl rfl
      · show s2.kids = l.s.kids.erase r2.pid
        rw [g6, g4]
      · show s2.mustKill.erase r1.pid = s2.mustKill.erase r2.pid
        rw [g4]
  obtain ⟨s4, v4, c4, e4, i4, f4⟩ := i3.acts (by intro u w hh; cases hh) c.acts
  refine ⟨s4, v4, c4, e4, i4, f4.pending.trans (g7.trans fp), f4.ended.trans (g8.trans fe), ts1 ++ ts2, ?_⟩
  obtain ⟨us, hus⟩ := f4.trace
  refine ⟨us, ?_⟩
  rw [hus]
  show (s2.trace ++ [_]) ++ us = _
  rw [hts2, hts1]
  have : (if c.wait ≠ 0 then c.wait else 0) = c.wait := by
    by_cases h0 : c.wait = 0
    · rw [h0]; rfl
    · rw [if_pos h0]
  rw [this]
  simp

theorem Inv.handle (h : Inv dbg lp s v recs none) (c : Choice) (hc : ∀ b e n, Call.read b e n ∈ c.calls → e = 0 ∨ e = EAGAIN) :
    ∃ s' v' recs', handle dbg s c = .ok s' ∧ Inv dbg lp s' v' recs' none ∧ s'.pending = s.pending.tail ∧ s'.ended = s.ended ∧
      ∀ ud ev rest, s.pending = (ud, ev) :: rest → ∃ t r k ts, recs t = some r ∧ k < 4 ∧ ud = udOf t k ∧ s'.trace = s.trace ++ ts ∧
        (k = 0 → Obs.closed r.pid c.wait ∈ ts) ∧
        (∀ i, k = i + 1 → ((ev.inn || ev.out) = true → ∃ f : Nat → Bool, f i = true ∧ Obs.event r.pid (f 0) (f 1) (f 2) ∈ ts.head?) ∧
          ((ev.hup || ev.rdhup) = true → r.fd (i + 1) ≠ 0 → Obs.close (r.fd (i + 1)) ∈ ts)) := by
  unfold Kids.handle
  cases hp : s.pending with
  | nil => exact ⟨s, v, recs, rfl, h, hp, rfl, fun _ _ _ hh => (by cases hh)⟩
  | cons p rest =>
    obtain ⟨ud, ev⟩ := p
    dsimp only
    obtain ⟨herr, t, r, k, hr, hk, hud⟩ := h.kin.pend (ud, ev) (by rw [hp]; exact List.mem_cons_self ..)
    have hud : ud = udOf t k := hud
    have herr : ev.err = false := herr
    have hcalm := h.kin.calm
    rw [hp, List.pairwise_cons] at hcalm
    obtain ⟨u1, u2⟩ := ud_parts (h.kin.slot_small hr).2 hk
    have h' : Inv dbg lp { s with pending := rest } v recs none :=
      ⟨h.base.other rfl rfl rfl, { h.kin with
        pend := fun q hq => h.kin.pend q (by rw [hp]; exact List.mem_cons_of_mem _ hq)
        calm := hcalm.2 }⟩
    obtain ⟨W, w1, w2, w3, w4, w5⟩ := h'.kin.pool
    obtain ⟨m, m1, m2, m3⟩ := w5 t r hr
    have hg : Pool.get dbg s.pool t = some m := by
      have := (Pool.live_kept W w1).1 _ _ m1
      rw [w2] at this
      exact this
    have hf : Fields m.word r.fd := m3
    have hloc : LocInv dbg lp t ⟨{ s with pending := rest }, m.word, 0, 0⟩ v recs r :=
      ⟨⟨h'.base, h'.kin.setCur hr (by intro u w hh; cases hh) hf⟩, hr, hf⟩
    unfold childEvent
    rw [hud, u1, u2]
    have hg' : Pool.get dbg ({ s with pending := rest } : St).pool (t : Int) = some m := hg
    rw [hg']
    dsimp only
    have hev : Ev.evErr ev = 0 := by unfold Ev.evErr; rw [herr]; rfl
    have hk4 : k = 0 ∨ k = 1 ∨ k = 2 ∨ k = 3 := by omega
    rcases hk4 with rfl | rfl | rfl | rfl
    · show ∃ s' v' recs', exited dbg _ t m (Ev.evErr ev) c = .ok s' ∧ _
      rw [hev]
      obtain ⟨s1, v1, c1, a1, a2, a3, a4, ts, us, a5⟩ := exited_ok hloc m2 (by
        intro q hq hh
        refine hcalm.1 q hq ⟨?_, ?_⟩
        · show Ev.kindOf ud = _
          rw [hud, u1]; rfl
        · show Ev.fdOf ud = _
          rw [hud, u2, hh]) c
      refine ⟨s1, v1, c1, a1, a2, a3, a4, fun ud' ev' rest' hh => ?_⟩
      injection hh with hh _
      injection hh with hh1 hh2
      refine ⟨t, r, 0, ts ++ Obs.closed r.pid c.wait :: us, hr, hk, hh1.symm, (by rw [a5, List.append_assoc]), fun _ => (by simp), fun i hi => (by omega)⟩
    · obtain ⟨s1, v1, c1, a1, a2, a3, a4, ts, a5, a6, a7⟩ := streamEvent_ok hloc m2 (i := 0) (by omega) ev herr c hc
      refine ⟨s1, v1, c1, a1, a2, a3, a4, fun ud' ev' rest' hh => ?_⟩
      injection hh with hh _
      injection hh with hh1 hh2
      subst hh2
      refine ⟨t, r, 1, ts, hr, hk, hh1.symm, a5, fun h0 => (by omega), fun i hi => ?_⟩
      obtain rfl : i = 0 := by omega
      exact ⟨a6, a7⟩
    · obtain ⟨s1, v1, c1, a1, a2, a3, a4, ts, a5, a6, a7⟩ := streamEvent_ok hloc m2 (i := 1) (by omega) ev herr c hc
      refine ⟨s1, v1, c1, a1, a2, a3, a4, fun ud' ev' rest' hh => ?_⟩
      injection hh with hh _
      injection hh with hh1 hh2
      subst hh2
      refine ⟨t, r, 2, ts, hr, hk, hh1.symm, a5, fun h0 => (by omega), fun i hi => ?_⟩
      obtain rfl : i = 1 := by omega
      exact ⟨a6, a7⟩
    · obtain ⟨s1, v1, c1, a1, a2, a3, a4, ts, a5, a6, a7⟩ := streamEvent_ok hloc m2 (i := 2) (by omega) ev herr c hc
      refine ⟨s1, v1, c1, a1, a2, a3, a4, fun ud' ev' rest' hh => ?_⟩
      injection hh with hh _
      injection hh with hh1 hh2
      subst hh2
      refine ⟨t, r, 3, ts, hr, hk, hh1.symm, a5, fun h0 => (by omega), fun i hi => ?_⟩
      obtain rfl : i = 2 := by omega
      exact ⟨a6, a7⟩

end

end Verif.Kids
