import Verif.EvStep
/-! # C85, C86: what a program sees of an event loop -/
namespace Verif.Ev

theorem before_reads : ∀ (own : List Nat) (v : View), own.Nodup → (∀ n ∈ own, v.owner n = .free) →
    ∃ v', v.read (own.map .userOpen) = some v' ∧ (∀ n, v'.owner n = if n ∈ own then .program else v.owner n) ∧
      v'.live = v.live
  | [], v, _, _ => ⟨v, rfl, by simp, rfl⟩
  | fd :: own, v, hn, hf => by
    have hn' := List.nodup_cons.1 hn
    obtain ⟨v', e, ho, hl⟩ := before_reads own (v.own fd .program) hn'.2 (by
      intro n hm
      show (if n = fd then Owner.program else v.owner n) = .free
      have hne : n ≠ fd := fun hc => hn'.1 (by rw [← hc]; exact hm)
      rw [if_neg hne]
      exact hf n (by simp [hm]))
    refine ⟨v', ?_, ?_, hl⟩
    · rw [List.map_cons, View.read, View.step, if_pos (hf fd (by simp))]
      exact e
    · intro n
      rw [ho n]
      show (if n ∈ own then Owner.program else if n = fd then Owner.program else v.owner n) = _
      by_cases h1 : n = fd
      · simp [h1]
      · simp [h1]

theorem before_inv {own : List Nat} (h : own.Nodup) : ∃ v, Inv (before own) v [] ∧ ∀ n, v.live n = none := by
  obtain ⟨v, e, ho, hl⟩ := before_reads own View.empty h (fun _ _ => rfl)
  have hl' (n : Nat) : v.live n = none := by rw [hl]; rfl
  refine ⟨v, ⟨⟨e, ?_, ?_, ?_, h, h, List.nodup_nil, by simp [before, St.sig]⟩, by simp [before], ?_, by simp [before],
    by simp [before]⟩, hl'⟩
  · intro n
    show n ∈ own ↔ _
    rw [ho n]
    by_cases hm : n ∈ own <;> simp [hm, View.empty]
  · intro n
    show n ∈ own ↔ _
    rw [ho n]
    by_cases hm : n ∈ own <;> simp [hm, View.empty]
  · intro n
    rw [ho n]
    by_cases hm : n ∈ own <;> simp [hm, View.empty, before, St.sig]
  · intro n t ht
    rw [hl' n] at ht; cases ht

/-- Giving the signal descriptor its place. -/
theorem setSignal {s : St} {v : View} {sg : Nat} (h : Inv s v [sg]) (h0 : s.signalFd = 0) (hsg : sg ≠ 0)
    (hreg : ∀ n, s.reg n = none) (hl : ∀ n, v.live n = none) (hp : s.pending = []) :
    Inv { s with signalFd := sg } v [] := by
  have e : s.sig = [] := by rw [St.sig, if_pos h0]
  have e' : St.sig { s with signalFd := sg } = [sg] := by
    show (if sg = 0 then _ else _) = _
    rw [if_neg hsg]
  have hb := h.base
  rw [e] at hb
  refine ⟨?_, ?_, ?_, ?_, h.pnodup⟩
  · rw [e']
    exact ⟨hb.reads, hb.opened, hb.mine, hb.loop, hb.onodup, hb.mnodup, hb.lnodup, hb.big⟩
  · intro n r hr
    have : s.reg n = some r := hr
    rw [hreg n] at this; cases this
  · intro n t ht
    rw [hl n] at ht; cases ht
  · intro p hpp
    have : p ∈ s.pending := hpp
    rw [hp] at this; cases this

theorem start_ends {own : List Nat} {fd : Nat} (hn : own.Nodup) (hf : newFd (before own) (.ok fd) = .ok fd)
    (sig : Except Errno Nat) (be : Errno) (as : List Act) (ce : Errno) :
    Ends (start (before own) fd sig be as ce) as := by
  obtain ⟨v, h, hl⟩ := before_inv hn
  obtain ⟨h1, f1, _, _, _, _⟩ := h.create (newFd_ok hf)
  -- after `epoll_create1`, with the error of `signal::block`
  have h2 : Inv { (before own).create fd with err := be } (v.own fd .loop) [fd] :=
    ⟨⟨h1.base.reads, h1.base.opened, h1.base.mine, h1.base.loop, h1.base.onodup, h1.base.mnodup, h1.base.lnodup,
      h1.base.big⟩, h1.reg, h1.live, h1.pend, h1.pnodup⟩
  have hl1 (n : Nat) : (v.own fd .loop).live n = none := hl n
  -- the rest, whatever `signal::block` gave
  have rest : ∀ (s : St) (v : View) (sg : Nat), Inv s v [] → (∀ n, v.live n = none) → s.pending = [] →
      s.ended = false → s.signalFd = sg →
      Ends ((acts s as).bind fun s => if sg ≠ 0 then
        match pack .signals sg 0 0 with
        | none => R.fault .packRange
        | some ud => R.ok (ctl s sg ⟨ud, true, false, false, false, true⟩ ce)
        else R.ok s) as := by
    intro s v sg i hl hp hd hsg
    have w : Watched s v [] := fun n t ht => by rw [hl n] at ht; cases ht
    rcases acts_spec i as with ⟨s', v', e, i', f⟩ | ⟨e, hls⟩
    · rw [e]
      dsimp only [R.bind]
      have hd' : s'.ended = false := by rw [f.ended]; exact hd
      have w' := w.frame i' f
      by_cases h0 : sg = 0
      · rw [if_neg (by simp [h0])]
        exact .inl ⟨s', rfl, .inl ⟨hd', v', i', w'⟩⟩
      · rw [if_pos h0]
        have hmem : sg ∈ s.mustClose ++ (s.sig ++ []) := by
          simp only [List.mem_append, St.sig]
          right; left
          rw [hsg, if_neg h0]; simp
        have hbig := i.base.big sg hmem
        have ho := (i.base.loop sg).1 hmem
        obtain ⟨ud, hud⟩ := pack_some .signals sg 0 0 hbig.2
        obtain ⟨u1, u2, _, _, u5⟩ := pack_unpack _ _ _ _ _ hud
        rw [hud]
        obtain ⟨o1, o2, _⟩ := f.owner sg ho
        have i2 := i'.ctl (e := ce) (r := ⟨ud, true, false, false, false, true⟩) o1
          ⟨u2, u5, .inr (.inr (.inr ⟨u1, by rw [o2]; exact hl sg, by rw [f.signalFd]; exact hsg.symm⟩))⟩
          (by rw [f.pending, hp]; simp)
        refine .inl ⟨_, rfl, .inl ⟨by rw [(ctl_frame _ _ _ _).2.2.2.1]; exact hd', v', i2, ?_⟩⟩
        intro n t ht
        rcases w' n t ht with hy | ⟨r, a, b, c, d⟩
        · cases hy
        · right
          have hne : n ≠ sg := by
            intro hc
            subst hc
            rw [o2, hl n] at ht; cases ht
          exact ⟨r, by rw [(ctl_frame _ _ _ _).2.2.2.2.2 n hne]; exact a, b, c, by rw [(ctl_frame _ _ _ _).1]; exact d⟩
    · rw [e]
      exact .inr ⟨rfl, hls⟩
  unfold start
  cases e : newFd { (before own).create fd with err := be } sig with
  | error er =>
    dsimp only
    have e' : newFd ({ (before own).create fd with err := be }) sig = .error er := e
    rw [e']
    dsimp only
    obtain ⟨h3, _⟩ := h2.mustAdd
    have es : ({ St.mustAdd ({ (before own).create fd with err := be } : St) fd with signalFd := 0 } : St) = St.mustAdd ({ (before own).create fd with err := be } : St) fd := rfl
    rw [es]
    exact rest _ _ 0 h3 hl1 rfl rfl rfl
  | ok sg =>
    dsimp only
    have e' : newFd ({ (before own).create fd with err := be }) sig = .ok sg := e
    rw [e']
    dsimp only
    have hsg := newFd_ok e
    obtain ⟨h3, f3, _, _, _, _⟩ := h2.create hsg
    have h3' : Inv (St.create { (before own).create fd with err := be } sg) ((v.own fd .loop).own sg .loop) [fd, sg] :=
      ⟨h3.base.perm ((List.Perm.append_left _ (List.Perm.append_left _ (List.Perm.swap fd sg [])))), h3.reg, h3.live, h3.pend, h3.pnodup⟩
    obtain ⟨h4, _⟩ := h3'.mustAdd
    exact rest _ _ sg (setSignal h4 rfl (by omega) (fun _ => rfl) (fun n => hl n) rfl) (fun n => hl n) rfl rfl rfl

theorem deliver_good {s : St} {v : View} (h : Good s v) (evs : List (Nat × Ep)) (hp : s.pending = [])
    (hn : (evs.map (·.1)).Nodup)
    (ha : ∀ e ∈ evs, ∃ r, s.reg e.1 = some r ∧ r.armed = true ∧ Allowed r e.2) : Good (deliver s evs) v := by
  have hreg : ∀ n r', (deliver s evs).reg n = some r' → ∃ r, s.reg n = some r ∧ r.ud = r'.ud ∧ r.rdhup = r'.rdhup ∧
      (r'.armed = r.armed ∨ n ∈ evs.map (·.1)) := by
    intro n r' hr
    have hr : ((s.reg n).map fun r => if r.oneshot = true ∧ n ∈ evs.map (·.1) then { r with armed := false } else r)
      = some r' := hr
    cases e : s.reg n with
    | none => rw [e] at hr; cases hr
    | some r =>
      rw [e] at hr
      injection hr with hr
      subst hr
      refine ⟨r, rfl, ?_, ?_, ?_⟩
      · dsimp only; split <;> rfl
      · dsimp only; split <;> rfl
      · dsimp only
        by_cases hc : r.oneshot = true ∧ n ∈ evs.map (·.1)
        · exact .inr hc.2
        · rw [if_neg hc]; exact .inl rfl
  have hreg' : ∀ n r, s.reg n = some r → ∃ r', (deliver s evs).reg n = some r' ∧ r'.ud = r.ud ∧ r'.rdhup = r.rdhup ∧
      (r'.armed = r.armed ∨ n ∈ evs.map (·.1)) := by
    intro n r hr
    refine ⟨_, by show (s.reg n).map _ = _; rw [hr]; rfl, ?_, ?_, ?_⟩
    · dsimp only; split <;> rfl
    · dsimp only; split <;> rfl
    · dsimp only
      by_cases hc : r.oneshot = true ∧ n ∈ evs.map (·.1)
      · exact .inr hc.2
      · rw [if_neg hc]; exact .inl rfl
  have hpl : ∀ (l : List (Nat × Ep)), (∀ e ∈ l, e ∈ evs) →
      (l.filterMap fun e => (s.reg e.1).map fun r => (r.ud, e.2)).map (fun p => fdOf p.1) = l.map (·.1) := by
    intro l
    induction l with
    | nil => intro _; rfl
    | cons e l ih =>
      intro hl
      obtain ⟨r, hr, _⟩ := ha e (hl e (by simp))
      have hf := (h.1.reg _ _ hr).2.1
      rw [List.filterMap_cons, hr]
      simp only [Option.map_some, List.map_cons]
      rw [hf, ih (fun e' he' => hl e' (by simp [he']))]
  have hpm : (deliver s evs).pending.map (fun p => fdOf p.1) = evs.map (·.1) := hpl evs (fun _ h => h)
  refine ⟨⟨⟨h.1.base.reads, h.1.base.opened, h.1.base.mine, h.1.base.loop, h.1.base.onodup, h.1.base.mnodup, h.1.base.lnodup,
    h.1.base.big⟩, ?_, h.1.live, ?_, ?_⟩, ?_⟩
  · intro n r' hr
    obtain ⟨r, hr0, eu, _, _⟩ := hreg n r' hr
    obtain ⟨a, b⟩ := h.1.reg n r hr0
    refine ⟨a, ?_⟩
    unfold RegOK at b ⊢
    rw [← eu]; exact b
  · intro p hpp
    have hpp : p ∈ evs.filterMap fun e => (s.reg e.1).map fun r => (r.ud, e.2) := hpp
    obtain ⟨e, he, hm⟩ := List.mem_filterMap.1 hpp
    obtain ⟨r, hr, _⟩ := ha e he
    rw [hr] at hm
    injection hm with hm
    obtain ⟨a, hf, _⟩ := h.1.reg _ _ hr
    have ep : p.1 = r.ud := by rw [← hm]
    rw [ep, hf]
    refine ⟨?_, ?_⟩
    · have := (h.1.base.loop e.1).2 a
      show e.1 ∈ s.mustClose ++ s.sig
      simpa using this
    · obtain ⟨r', hr', eu, _⟩ := hreg' _ r hr
      exact ⟨r', hr', eu⟩
  · rw [hpm]; exact hn
  · intro n t ht
    rcases h.2 n t ht with hy | ⟨r, a, b, c, d⟩
    · cases hy
    · right
      obtain ⟨r', hr', eu, ec, hd⟩ := hreg' n r a
      refine ⟨r', hr', by rw [eu]; exact b, by rw [ec]; exact c, ?_⟩
      rw [hpm]
      rcases hd with hd | hd
      · rw [hp] at d
        rcases d with d | d
        · exact .inl (by rw [hd]; exact d)
        · cases d
      · exact .inr hd

theorem Reach.good {s : St} (h : Reach s) :
    (s.ended = false ∧ ∃ v, Good s v) ∨ (s.ended = true ∧ ∃ v, Base s v []) := by
  induction h with
  | start own fd sig e as ce s hn hf hs =>
    rcases start_ends hn hf sig e as ce with ⟨s', e', r⟩ | ⟨e', _⟩
    · rw [hs] at e'; injection e' with e'; subst e'; exact r
    · rw [hs] at e'; cases e'
  | wait s evs _ hd hp hn ha ih =>
    rcases ih with ⟨_, v, g⟩ | ⟨he, _⟩
    · exact .inl ⟨hd, v, deliver_good g evs hp hn ha⟩
    · rw [hd] at he; cases he
  | handle s c s' _ hd hs ih =>
    rcases ih with ⟨_, v, g⟩ | ⟨he, _⟩
    · rcases handle_ends g hd c with ⟨s'', e', r⟩ | ⟨e', _⟩
      · rw [hs] at e'; injection e' with e'; subst e'; exact r
      · rw [hs] at e'; cases e'
    · rw [hd] at he; cases he
  | error s s' _ hd hp hs ih =>
    rcases ih with ⟨_, v, g⟩ | ⟨he, _⟩
    · obtain ⟨s'', v', e', he, hb⟩ := finish_ends g.1
      rw [hs] at e'; injection e' with e'; subst e'
      exact .inr ⟨he, v', hb⟩
    · rw [hd] at he; cases he

/-! ## The theorems -/

/-- **C85** Whatever the kernel answers and whatever the callbacks do, the trace keeps the rules of `View.step`: each
connection is announced once, all its events carry the tag its `socket_accepted` left and come before its
`socket_closed`, which comes once, right after its descriptor was closed; the loop closes only its own descriptors, once
each, and nobody else's. -/
theorem callbacks_in_order (s : St) (h : Reach s) : ∃ v, Reads s.trace v := by
  rcases h.good with ⟨_, v, g⟩ | ⟨_, v, b⟩
  · exact ⟨v, g.1.base.reads⟩
  · exact ⟨v, b.reads⟩

/-- **C85** The reader's table is the kernel's: the descriptors open in the process are those the trace says. -/
theorem open_descriptors (s : St) (h : Reach s) (v : View) (hv : Reads s.trace v) (n : Nat) :
    n ∈ s.opened ↔ v.owner n ≠ .free := by
  rcases h.good with ⟨_, w, g⟩ | ⟨_, w, b⟩
  · have : v = w := by have := g.1.base.reads; unfold Reads at hv this; rw [hv] at this; injection this
    subst this; exact g.1.base.opened n
  · have : v = w := by have := b.reads; unfold Reads at hv this; rw [hv] at this; injection this
    subst this; exact b.opened n

/-- **C86** When the loop has returned, all descriptors it had opened are closed. -/
theorem nothing_left_open (s : St) (h : Reach s) (he : s.ended = true) (v : View) (hv : Reads s.trace v) (n : Nat) :
    v.owner n ≠ .loop ∧ (n ∈ s.opened ↔ v.owner n = .program) := by
  rcases h.good with ⟨hf, _⟩ | ⟨_, w, b⟩
  · rw [he] at hf; cases hf
  · have : v = w := by have := b.reads; unfold Reads at hv this; rw [hv] at this; injection this
    subst this
    have h1 : v.owner n ≠ .loop := fun hc => by have := (b.loop n).2 hc; cases this
    refine ⟨h1, ?_⟩
    rw [b.opened n]
    cases e : v.owner n with
    | free => simp
    | program => simp
    | loop => exact absurd e h1

/-- **C87** No connection is forgotten: while the loop runs, the descriptor of every live connection is armed on the
interest list, at least for the peer's hang-up, or its event is about to be handled. -/
theorem no_connection_forgotten (s : St) (h : Reach s) (he : s.ended = false) (v : View) (hv : Reads s.trace v)
    (n : Nat) (tag : BitVec 32) (hl : v.live n = some tag) :
    ∃ r, s.reg n = some r ∧ fdOf r.ud = n ∧ tagOf r.ud = tag ∧ r.rdhup = true ∧
      (r.armed = true ∨ ∃ ev, (r.ud, ev) ∈ s.pending) := by
  rcases h.good with ⟨_, w, g⟩ | ⟨hf, _⟩
  · have : v = w := by have := g.1.base.reads; unfold Reads at hv this; rw [hv] at this; injection this
    subst this
    rcases g.2 n tag hl with hy | ⟨r, a, b, c, d⟩
    · cases hy
    · obtain ⟨_, hf, _, hcase⟩ := g.1.reg n r a
      refine ⟨r, a, hf, ?_, c, ?_⟩
      · rcases hcase with q | q | q | q
        · have := q.2.1; rw [hl] at this; injection this with this; exact this.symm
        all_goals (have := q.2.1; rw [hl] at this; cases this)
      · rcases d with d | d
        · exact .inl d
        · right
          obtain ⟨p, hp, e⟩ := List.mem_map.1 d
          obtain ⟨_, r', hr', hu⟩ := g.1.pend p hp
          have hr' : s.reg (fdOf p.1) = some r' := hr'
          rw [show fdOf p.1 = n from e, a] at hr'
          injection hr' with hr'
          refine ⟨p.2, ?_⟩
          rw [hr', hu]
          exact hp
  · rw [he] at hf; cases hf

/-- **C86** The loop's own assertions hold, whatever happens: handling an event can only fail inside a call of
`ipv4_listen` made by a callback. Partial: with `ipv4_listen` calls it is false, see `listen_without_descriptors`. -/
theorem no_fault_partial (s : St) (h : Reach s) (he : s.ended = false) (c : Choice)
    (hc : ∀ a ∈ c.acts ++ c.acts', a.listens = false) : ∃ s', handle s c = .ok s' := by
  rcases h.good with ⟨_, v, g⟩ | ⟨hf, _⟩
  · rcases handle_ends g he c with ⟨s', e, _⟩ | ⟨_, a, ha, hl⟩
    · exact ⟨s', e⟩
    · rw [hc a ha] at hl; cases hl
  · rw [he] at hf; cases hf

/-- **C86** Ending the loop never fails. -/
theorem finish_ok (s : St) (h : Reach s) (he : s.ended = false) : ∃ s', finish s = .ok s' := by
  rcases h.good with ⟨_, v, g⟩ | ⟨hf, _⟩
  · obtain ⟨s', _, e, _⟩ := finish_ends g.1
    exact ⟨s', e⟩
  · rw [he] at hf; cases hf

/-- **C86** A failed `socket` call inside `ipv4_listen` ends the process: it closes descriptor `-1`, and `close` asserts. -/
theorem listen_without_descriptors (s : St) (w : Bool) (e b c : Errno) :
    act s (.listen w (.error e) b c) = .fault .closeLow := rfl

/-! ## A run -/

/-- One event at a time; stops where the kernel could not report the event. -/
def play : St → List (Nat × Ep × Choice) → Option St
  | s, [] => some s
  | s, (fd, ev, c) :: l =>
    match s.reg fd with
    | none => none
    | some r =>
      if s.ended = false ∧ s.pending = [] ∧ r.armed = true ∧ (ev.inn → r.inn) ∧ (ev.out → r.out) ∧ (ev.rdhup → r.rdhup) ∧
          ev ≠ {} then
        match handle (deliver s [(fd, ev)]) c with
        | .ok s' => play s' l
        | .fault _ => none
      else none

theorem play_reach : ∀ (l : List (Nat × Ep × Choice)) (s s' : St), Reach s → play s l = some s' → Reach s'
  | [], s, s', h, e => by injection e with e; rw [← e]; exact h
  | (fd, ev, c) :: l, s, s', h, e => by
    rw [play] at e
    split at e
    · cases e
    · rename_i r hr
      split at e
      · rename_i hc
        split at e
        · rename_i s1 h1
          refine play_reach l s1 s' (Reach.handle _ c s1 (Reach.wait s [(fd, ev)] h hc.1 hc.2.1 (by simp) ?_) hc.1 h1) e
          intro x hx
          simp only [List.mem_singleton] at hx
          subst hx
          exact ⟨r, hr, hc.2.2.1, hc.2.2.2.1, hc.2.2.2.2.1, hc.2.2.2.2.2.1, hc.2.2.2.2.2.2⟩
        · cases e
      · cases e

/-- A program with descriptors 0, 1, 2 that listens on 5. -/
def demoStart : R St := start (before [0, 1, 2]) 3 (.ok 4) 0 [.listen false (.ok 5) 0 0] 0

/-- A client comes (descriptor 6, tag 99), sends a request, gets an answer in two pieces, and leaves; then a signal ends the
loop. -/
def demoEvents : List (Nat × Ep × Choice) :=
  [(5, { inn := true }, ⟨.ok 6, 99, [], [.openOwn 7], 0, []⟩),
   (6, { inn := true }, ⟨.error 0, 0, [.read 0 100, .write 50 0 20], [], 0, []⟩),
   (6, { out := true }, ⟨.error 0, 0, [.write 30 0 30], [], 0, []⟩),
   (6, { inn := true, rdhup := true }, ⟨.error 0, 0, [.read 0 0], [], 0, [.openOwn 6]⟩),
   (4, { inn := true }, ⟨.error 0, 0, [], [], 0, []⟩)]

/-- What is observed in that run. -/
def demoTrace : List Obs :=
  [.userOpen 0, .userOpen 1, .userOpen 2, .create 3, .create 4, .create 5, .create 6, .accepted 6 99, .userOpen 7,
   .event 6 99 true true, .event 6 99 false true, .event 6 99 true true, .close 6, .closed 6 99 0, .userOpen 6,
   .close 5, .close 3, .close 4]

/-- The run, if it gets to its end. -/
def demo : Option St :=
  match demoStart with
  | .ok s => play s demoEvents
  | .fault _ => none

theorem demo_reach (s : St) (h : demo = some s) : Reach s := by
  unfold demo at h
  split at h
  · rename_i s0 h0
    exact play_reach _ _ _ (Reach.start [0, 1, 2] 3 (.ok 4) 0 [.listen false (.ok 5) 0 0] 0 s0 (by decide) rfl h0) h
  · cases h

example : ∃ s, Reach s ∧ s.ended = true ∧ s.trace = demoTrace := by
  have h : demo.map (fun s => (s.ended, s.trace)) = some (true, demoTrace) := by decide +kernel
  cases e : demo with
  | none => rw [e] at h; cases h
  | some s =>
    rw [e] at h
    injection h with h
    injection h with h1 h2
    exact ⟨s, demo_reach s e, h1, h2⟩

end Verif.Ev
