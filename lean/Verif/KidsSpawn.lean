import Verif.KidsKin
/-! # `spawn` keeps the children of an event loop in order -/
namespace Verif.Kids
open Verif.Ev (Owner Ep Reg)

/-- The invariant between events. -/
structure Inv (dbg : Bool) (lp : Nat) (s : St) (v : View) (recs : Nat → Option Rec) (cur : Option (Nat × BitVec 128)) : Prop where
  base : Base s v s.mustClose
  kin : Kin dbg lp s v recs cur

theorem Base.relist {s : St} {v : View} {l l' : List Nat} (h : Base s v l) (hn : l'.Nodup) (hm : ∀ n, n ∈ l' ↔ n ∈ l) : Base s v l' :=
  { h with
    loop := fun n => (hm n).trans (h.loop n)
    lnodup := hn
    big := fun n hh => h.big n ((hm n).1 hh) }

/-! ## Waking up -/

theorem arm_spec (s : St) (fd ud : Nat) (want inn : Bool) (refused : List Nat) :
    ∃ rg, arm s fd ud want inn refused = { s with reg := rg } ∧
      ∀ n g, rg n = some g → s.reg n = some g ∨ (n = fd ∧ fd ≠ 0 ∧ g.ud = ud) := by
  unfold arm
  split
  · rename_i hh
    refine ⟨_, rfl, fun n g hg => ?_⟩
    by_cases hn : n = fd
    · rw [if_pos hn] at hg
      injection hg with hg
      subst hg
      exact Or.inr ⟨hn, hh.1, rfl⟩
    · rw [if_neg hn] at hg
      exact Or.inl hg
  · exact ⟨s.reg, rfl, fun n g hg => Or.inl hg⟩

theorem wakeUp_spec (s : St) {t : Nat} (ht : t ≤ 0xffffff) (fd : Nat → Nat) (wants : Nat) (refused : List Nat) :
    ∃ rg, wakeUp s t (fd 0) (fd 1) (fd 2) (fd 3) wants refused = .ok { s with reg := rg } ∧
      ∀ n g, rg n = some g → s.reg n = some g ∨ (n ≠ 0 ∧ ∃ k < 4, fd k = n ∧ g.ud = udOf t k) := by
  unfold wakeUp
  rw [pack_pidfd ht]
  dsimp only
  obtain ⟨r0, e0, h0⟩ := arm_spec s (fd 0) (udOf t 0) true true refused
  rw [e0]
  obtain ⟨r1, e1, h1⟩ := arm_spec { s with reg := r0 } (fd 1) (udOf t 0 + 1) (wants.testBit 0) false refused
  rw [e1]
  obtain ⟨r2, e2, h2⟩ := arm_spec { s with reg := r1 } (fd 2) (udOf t 0 + 2) (wants.testBit 1) true refused
  rw [e2]
  obtain ⟨r3, e3, h3⟩ := arm_spec { s with reg := r2 } (fd 3) (udOf t 0 + 3) (wants.testBit 2) true refused
  rw [e3]
  refine ⟨r3, rfl, fun n g hg => ?_⟩
  rcases h3 n g hg with hg | ⟨a, b, c⟩
  · rcases h2 n g hg with hg | ⟨a, b, c⟩
    · rcases h1 n g hg with hg | ⟨a, b, c⟩
      · rcases h0 n g hg with hg | ⟨a, b, c⟩
        · exact Or.inl hg
        · exact Or.inr ⟨a ▸ b, 0, by omega, a.symm, c⟩
      · exact Or.inr ⟨a ▸ b, 1, by omega, a.symm, c⟩
    · exact Or.inr ⟨a ▸ b, 2, by omega, a.symm, c⟩
  · exact Or.inr ⟨a ▸ b, 3, by omega, a.symm, c⟩

theorem Inv.wakeUp {dbg : Bool} {lp : Nat} {s : St} {v : View} {recs : Nat → Option Rec} {cur : Option (Nat × BitVec 128)}
    (h : Inv dbg lp s v recs cur) {t : Nat} {r : Rec} (e : recs t = some r) (wants : Nat) (refused : List Nat) :
    ∃ rg, wakeUp s t (r.fd 0) (r.fd 1) (r.fd 2) (r.fd 3) wants refused = .ok { s with reg := rg } ∧
      Inv dbg lp { s with reg := rg } v recs cur := by
  obtain ⟨rg, h1, h2⟩ := wakeUp_spec s (h.kin.slot_small e).2 r.fd wants refused
  refine ⟨rg, h1, h.base.other rfl rfl rfl, { h.kin with reg := fun n g hg => ?_ }⟩
  rcases h2 n g hg with hg | ⟨a, k, b, c, d⟩
  · exact h.kin.reg n g hg
  · exact ⟨a, t, r, k, e, b, c, d⟩

/-! ## A new child -/

/-- The new owner of a descriptor, if there is one. -/
def View.ownIf (v : View) (fd : Nat) : View := if fd ≠ 0 then v.own fd .loop else v

theorem Base.createIf {s : St} {v : View} {l : List Nat} (h : Base s v l) {fd : Nat} (hf : fd ≠ 0 → freshFd s fd) :
    ∃ l', Base (s.createIf fd) (v.ownIf fd) l' ∧ ∀ n, n ∈ l' ↔ (n = fd ∧ fd ≠ 0) ∨ n ∈ l := by
  unfold St.createIf View.ownIf
  by_cases e : fd ≠ 0
  · rw [if_pos e, if_pos e]
    exact ⟨_, h.create (hf e), fun n => by simp [e]⟩
  · rw [if_neg e, if_neg e]
    exact ⟨l, h, fun n => by simp [e]⟩

theorem createIf_same (s : St) (fd : Nat) : (s.createIf fd).mine = s.mine ∧ (s.createIf fd).kids = s.kids ∧ (s.createIf fd).reg = s.reg ∧
    (s.createIf fd).mustClose = s.mustClose ∧ (s.createIf fd).mustKill = s.mustKill ∧ (s.createIf fd).pool = s.pool ∧
    (s.createIf fd).pending = s.pending ∧ (s.createIf fd).ended = s.ended := by
  unfold St.createIf
  split <;> exact ⟨rfl, rfl, rfl, rfl, rfl, rfl, rfl, rfl⟩

theorem createIf_trace (s : St) (fd : Nat) : ∃ ts, (s.createIf fd).trace = s.trace ++ ts := by
  unfold St.createIf
  split
  · exact ⟨_, rfl⟩
  · exact ⟨[], (List.append_nil _).symm⟩

theorem createIf_opened (s : St) (fd n : Nat) : n ∈ (s.createIf fd).opened ↔ (n = fd ∧ fd ≠ 0) ∨ n ∈ s.opened := by
  unfold St.createIf
  split
  · rename_i h
    show n ∈ fd :: s.opened ↔ _
    simp [h]
  · rename_i h
    simp [h]

theorem ownIf_same (v : View) (fd : Nat) : (v.ownIf fd).kid = v.kid ∧ (v.ownIf fd).pipe = v.pipe := by
  unfold View.ownIf
  split <;> exact ⟨rfl, rfl⟩

theorem mustAdd_same (s : St) (fd : Nat) : (s.mustAdd fd).mine = s.mine ∧ (s.mustAdd fd).kids = s.kids ∧ (s.mustAdd fd).reg = s.reg ∧
    (s.mustAdd fd).opened = s.opened ∧ (s.mustAdd fd).mustKill = s.mustKill ∧ (s.mustAdd fd).pool = s.pool ∧
    (s.mustAdd fd).pending = s.pending ∧ (s.mustAdd fd).ended = s.ended ∧ (s.mustAdd fd).trace = s.trace := by
  unfold St.mustAdd
  split <;> exact ⟨rfl, rfl, rfl, rfl, rfl, rfl, rfl, rfl, rfl⟩

theorem mustAdd_mem (s : St) (fd n : Nat) : n ∈ (s.mustAdd fd).mustClose ↔ (n = fd ∧ fd ≠ 0) ∨ n ∈ s.mustClose := by
  unfold St.mustAdd
  by_cases e : fd ≠ 0
  · rw [if_pos e]
    show n ∈ (if fd ∈ s.mustClose then s.mustClose else fd :: s.mustClose) ↔ _
    split
    · rename_i h
      constructor
      · exact Or.inr
      · rintro (⟨rfl, _⟩ | h')
        · exact h
        · exact h'
    · simp [e]
  · rw [if_neg e]; simp [e]

theorem mustAdd_nodup (s : St) (fd : Nat) (h : s.mustClose.Nodup) : (s.mustAdd fd).mustClose.Nodup := by
  unfold St.mustAdd
  split
  · show (if fd ∈ s.mustClose then s.mustClose else fd :: s.mustClose).Nodup
    split
    · exact h
    · exact List.nodup_cons.2 ⟨by assumption, h⟩
  · exact h

theorem addPipe_pipe (v : View) (fd pid i n : Nat) :
    (v.addPipe fd pid i).pipe n = if n = fd ∧ fd ≠ 0 then some (pid, i) else v.pipe n := by
  unfold View.addPipe
  by_cases e : fd = 0
  · rw [if_pos e]; simp [e]
  · rw [if_neg e]
    show (if n = fd then _ else _) = _
    simp [e]

theorem addPipe_same (v : View) (fd pid i : Nat) : (v.addPipe fd pid i).kid = v.kid ∧ (v.addPipe fd pid i).owner = v.owner := by
  unfold View.addPipe
  split <;> exact ⟨rfl, rfl⟩

section
variable {dbg : Bool} {lp : Nat} {s s' : St} {v v' : View} {recs : Nat → Option Rec} {cur : Option (Nat × BitVec 128)}

/-- Room for one more child. -/
theorem Kin.room (h : Kin dbg lp s v recs cur) {W : Pool.World Meta} (w1 : Pool.Reach link dbg W) {pid : Nat} (hp : pid ≤ 2 ^ 22) (hk : pid ∉ s.kids)
    (w4 : ∀ slot m, (slot, m) ∈ W.live → ∃ t : Nat, slot = (t : Int) ∧ ∃ r, recs t = some r)
    (w5 : ∀ t r, recs t = some r → ∃ m, ((t : Int), m) ∈ W.live ∧ m.tail.toNat = r.pid ∧ Fields (wordOf cur t m) r.fd) :
    W.live.length + 1 ≤ 2 ^ 22 + 1 := by
  have key : ∀ e ∈ W.live, ∃ (t : Nat) (r : Rec), e.1 = (t : Int) ∧ recs t = some r ∧ e.2.tail.toNat = r.pid := by
    rintro ⟨slot, m⟩ he
    obtain ⟨t, rfl, r, hr⟩ := w4 slot m he
    obtain ⟨m', m1, m2, _⟩ := w5 t r hr
    have g1 := (Pool.live_kept W w1).1 _ _ he
    have g2 := (Pool.live_kept W w1).1 _ _ m1
    rw [g1] at g2
    injection g2 with g2
    subst g2
    exact ⟨t, r, rfl, hr, m2⟩
  have hl : (pid :: W.live.map (fun e => e.2.tail.toNat)).Nodup := by
    refine List.nodup_cons.2 ⟨?_, List.Nodup.map_on ?_ (live_nodup w1)⟩
    · intro hm
      obtain ⟨e, he, rfl⟩ := List.mem_map.1 hm
      obtain ⟨t, r, _, hr, hpid⟩ := key e he
      exact hk (by rw [hpid]; exact (h.kids _).2 ⟨t, r, hr, rfl⟩)
    · intro a ha b hb hab
      obtain ⟨t, r, e1, hr, hpid⟩ := key a ha
      obtain ⟨t', r', e1', hr', hpid'⟩ := key b hb
      have := h.pids t r t' r' hr hr' (by rw [← hpid, ← hpid']; exact hab)
      subst this
      obtain ⟨a1, a2⟩ := a
      obtain ⟨b1, b2⟩ := b
      simp only at e1 e1'
      subst e1; subst e1'
      have g1 := (Pool.live_kept W w1).1 _ _ ha
      have g2 := (Pool.live_kept W w1).1 _ _ hb
      rw [g1] at g2
      injection g2 with g2
      rw [g2]
  have := CallArgs.length_le_of_nodup (n := 2 ^ 22 + 1) hl (by
    intro j hj
    rcases List.mem_cons.1 hj with rfl | hj
    · omega
    · obtain ⟨e, he, rfl⟩ := List.mem_map.1 hj
      obtain ⟨t, r, _, hr, hpid⟩ := key e he
      have := (h.pidok t r hr).2
      omega)
  simp only [List.length_cons, List.length_map] at this
  exact this

/-- A child is added. -/
theorem Kin.add (h : Kin dbg lp s v recs cur) {t pid : Nat} {fd : Nat → Nat} {m : Meta} {W W' : Pool.World Meta} (hp : 0 < pid ∧ pid ≤ 2 ^ 22)
    (hk : pid ∉ s.kids) (F : ∀ j < 4, fd j ≠ 0 → fd j ∉ s.opened) (D : ∀ i < 4, ∀ j < 4, fd i = fd j → fd i ≠ 0 → i = j)
    (O : ∀ n ∈ s.mustClose, n ∈ s.opened) (hnew : recs t = none)
    (hw : Fields m.word fd) (hm : m.tail.toNat = pid) (hcur : ∀ u w, cur = some (u, w) → u ≠ t)
    (w4 : ∀ slot m, (slot, m) ∈ W.live → ∃ t : Nat, slot = (t : Int) ∧ ∃ r, recs t = some r)
    (w5 : ∀ t r, recs t = some r → ∃ m, ((t : Int), m) ∈ W.live ∧ m.tail.toNat = r.pid ∧ Fields (wordOf cur t m) r.fd)
    (x1 : Pool.Reach link dbg W') (x2 : W'.pool = s'.pool) (x3 : W'.peak ≤ 2 ^ 22 + 1) (x4 : ∀ e, e ∈ W'.live ↔ e = ((t : Int), m) ∨ e ∈ W.live)
    (e1 : ∀ n, n ∈ s'.mustClose ↔ (n ≠ 0 ∧ ∃ j < 4, fd j = n) ∨ n ∈ s.mustClose)
    (e2 : s'.kids = pid :: s.kids) (e3 : s'.mustKill = pid :: s.mustKill)
    (e5 : ∀ n g, s'.reg n = some g → s.reg n = some g ∨ (n ≠ 0 ∧ ∃ k < 4, fd k = n ∧ g.ud = udOf t k)) (e6 : s'.pending = s.pending)
    (e7 : ∀ p, v'.kid p = true ↔ p = pid ∨ v.kid p = true)
    (e8 : ∀ n p i, v'.pipe n = some (p, i) ↔ (n ≠ 0 ∧ i < 4 ∧ p = pid ∧ fd i = n) ∨ v.pipe n = some (p, i)) :
    Kin dbg lp s' v' (fun u => if u = t then some ⟨pid, fd⟩ else recs u) cur := by
  have cases' : ∀ {u q}, (if u = t then some (⟨pid, fd⟩ : Rec) else recs u) = some q → (u = t ∧ q = ⟨pid, fd⟩) ∨ (u ≠ t ∧ recs u = some q) := by
    intro u q a
    by_cases c : u = t
    · rw [if_pos c] at a; injection a with a; exact Or.inl ⟨c, a.symm⟩
    · rw [if_neg c] at a; exact Or.inr ⟨c, a⟩
  have old : ∀ {u q}, recs u = some q → (if u = t then some (⟨pid, fd⟩ : Rec) else recs u) = some q := by
    intro u q a
    rw [if_neg]
    · exact a
    · rintro rfl; rw [hnew] at a; cases a
  have new : (if t = t then some (⟨pid, fd⟩ : Rec) else recs t) = some ⟨pid, fd⟩ := if_pos rfl
  have oldopen : ∀ {u q k}, recs u = some q → k < 4 → q.fd k ≠ 0 → q.fd k ∈ s.opened := by
    intro u q k a b c
    exact O _ ((h.must _).2 (Or.inr ⟨c, u, q, k, a, b, rfl⟩))
  have lpopen : lp ∈ s.opened := O _ ((h.must _).2 (Or.inl rfl))
  have kiff : ∀ p, (p = pid ∨ ∃ u q, recs u = some q ∧ q.pid = p) ↔
      ∃ u q, (if u = t then some (⟨pid, fd⟩ : Rec) else recs u) = some q ∧ q.pid = p := by
    intro p
    constructor
    · rintro (rfl | ⟨u, q, a, b⟩)
      · exact ⟨t, _, new, rfl⟩
      · exact ⟨u, q, old a, b⟩
    · rintro ⟨u, q, a, b⟩
      rcases cases' a with ⟨_, rfl⟩ | ⟨_, a⟩
      · exact Or.inl b.symm
      · exact Or.inr ⟨u, q, a, b⟩
  have pidnew : ∀ {u q}, recs u = some q → q.pid ≠ pid := by
    intro u q a hh
    exact hk ((h.kids _).2 ⟨u, q, a, hh⟩)
  exact {
    lpmem := h.lpmem
    must := fun n => by
      rw [e1, h.must n]
      constructor
      · rintro (⟨a, j, b, c⟩ | a | ⟨a, u, q, k, b, c, d⟩)
        · exact Or.inr ⟨a, t, _, j, new, b, c⟩
        · exact Or.inl a
        · exact Or.inr ⟨a, u, q, k, old b, c, d⟩
      · rintro (a | ⟨a, u, q, k, b, c, d⟩)
        · exact Or.inr (Or.inl a)
        · rcases cases' b with ⟨_, rfl⟩ | ⟨_, b⟩
          · exact Or.inl ⟨a, k, c, d⟩
          · exact Or.inr (Or.inr ⟨a, u, q, k, b, c, d⟩)
    lpnot := fun u q k a b => by
      rcases cases' a with ⟨_, rfl⟩ | ⟨_, a⟩
      · intro hh
        have := h.lpmem
        refine F k b (fun h0 => ?_) ?_
        · have hh : fd k = lp := hh
          omega
        · have hh : fd k = lp := hh
          rw [hh]; exact lpopen
      · exact h.lpnot u q k a b
    inj := fun u1 q1 k1 u2 q2 k2 a1 a2 b1 b2 c d => by
      rcases cases' a1 with ⟨rfl, rfl⟩ | ⟨n1, a1'⟩
      · rcases cases' a2 with ⟨rfl, rfl⟩ | ⟨n2, a2'⟩
        · exact ⟨rfl, D k1 b1 k2 b2 c d⟩
        · exfalso
          have c' : fd k1 = q2.fd k2 := c
          have d' : fd k1 ≠ 0 := d
          exact F k1 b1 d' (by rw [c']; exact oldopen a2' b2 (by rw [← c']; exact d'))
      · rcases cases' a2 with ⟨rfl, rfl⟩ | ⟨n2, a2'⟩
        · exfalso
          have c' : q1.fd k1 = fd k2 := c
          exact F k2 b2 (by rw [← c']; exact d) (by rw [← c']; exact oldopen a1' b1 d)
        · exact h.inj u1 q1 k1 u2 q2 k2 a1' a2' b1 b2 c d
    pids := fun u1 q1 u2 q2 a1 a2 b => by
      rcases cases' a1 with ⟨rfl, rfl⟩ | ⟨n1, a1'⟩
      · rcases cases' a2 with ⟨rfl, rfl⟩ | ⟨n2, a2'⟩
        · rfl
        · exact absurd b.symm (pidnew a2')
      · rcases cases' a2 with ⟨rfl, rfl⟩ | ⟨n2, a2'⟩
        · exact absurd b (pidnew a1')
        · exact h.pids u1 q1 u2 q2 a1' a2' b
    pidok := fun u q a => by
      rcases cases' a with ⟨rfl, rfl⟩ | ⟨n1, a⟩
      · exact hp
      · exact h.pidok u q a
    kids := fun p => by
      rw [e2, List.mem_cons, h.kids p]; exact kiff p
    kill := fun p => by
      rw [e3, List.mem_cons, h.kill p]; exact kiff p
    knodup := by rw [e2]; exact List.nodup_cons.2 ⟨hk, h.knodup⟩
    mnodup := by
      rw [e3]
      refine List.nodup_cons.2 ⟨fun hm => hk ?_, h.mnodup⟩
      exact (h.kids _).2 ((h.kill _).1 hm)
    vkid := fun p => by rw [e7, h.vkid p]; exact kiff p
    vpipe := fun n p i => by
      rw [e8, h.vpipe n p i]
      constructor
      · rintro (⟨a, b, c, d⟩ | ⟨a, b, u, q, c, d, f⟩)
        · exact ⟨a, b, t, _, new, c.symm, d⟩
        · exact ⟨a, b, u, q, old c, d, f⟩
      · rintro ⟨a, b, u, q, c, d, f⟩
        rcases cases' c with ⟨rfl, rfl⟩ | ⟨_, c⟩
        · exact Or.inl ⟨a, b, d.symm, f⟩
        · exact Or.inr ⟨a, b, u, q, c, d, f⟩
    pool := by
      refine ⟨W', x1, x2, x3, fun slot m' hm' => ?_, fun u q a => ?_⟩
      · rcases (x4 _).1 hm' with hh | hh
        · injection hh with hh _
          exact ⟨t, hh, _, new⟩
        · obtain ⟨u, rfl, q, a⟩ := w4 slot m' hh
          exact ⟨u, rfl, q, old a⟩
      · rcases cases' a with ⟨rfl, rfl⟩ | ⟨hne, a⟩
        · refine ⟨m, (x4 _).2 (Or.inl rfl), hm, ?_⟩
          have : wordOf cur u m = m.word := by
            unfold wordOf
            cases cur with
            | none => rfl
            | some p =>
              obtain ⟨u', w⟩ := p
              simp only
              rw [if_neg (hcur u' w rfl)]
          rw [this]; exact hw
        · obtain ⟨m', y1, y2, y3⟩ := w5 u q a
          exact ⟨m', (x4 _).2 (Or.inr y1), y2, y3⟩
    reg := fun n g hg => by
      rcases e5 n g hg with hg | ⟨a, k, b, c, d⟩
      · obtain ⟨a0, u, q, k, a, b, c, d⟩ := h.reg n g hg
        exact ⟨a0, u, q, k, old a, b, c, d⟩
      · exact ⟨a, t, _, k, new, b, c, d⟩
    pend := fun p hp => by
      rw [e6] at hp
      obtain ⟨a0, u, q, k, a, b, c⟩ := h.pend p hp
      exact ⟨a0, u, q, k, old a, b, c⟩
    calm := by rw [e6]; exact h.calm }

/-- What stays the same while callbacks run. -/
structure Frame (s s' : St) (recs recs' : Nat → Option Rec) : Prop where
  recs : ∀ t r, recs t = some r → recs' t = some r
  pending : s'.pending = s.pending
  ended : s'.ended = s.ended
  trace : ∃ ts, s'.trace = s.trace ++ ts

theorem Frame.refl (s : St) (recs : Nat → Option Rec) : Frame s s recs recs := ⟨fun _ _ h => h, rfl, rfl, [], (List.append_nil _).symm⟩

theorem Frame.trans {s s' s'' : St} {recs recs' recs'' : Nat → Option Rec} (h : Frame s s' recs recs') (h' : Frame s' s'' recs' recs'') :
    Frame s s'' recs recs'' :=
  ⟨fun t r a => h'.recs t r (h.recs t r a), h'.pending.trans h.pending, h'.ended.trans h.ended, by
    obtain ⟨a, ha⟩ := h.trace
    obtain ⟨b, hb⟩ := h'.trace
    exact ⟨a ++ b, by rw [hb, ha, List.append_assoc]⟩⟩

theorem fds_cases {k : Kid} (hn : k.fds.Nodup) : (k.inFd = k.outFd → k.inFd = 0) ∧ (k.inFd = k.errFd → k.inFd = 0) ∧
    (k.outFd = k.errFd → k.outFd = 0) := by
  unfold Kid.fds at hn
  have f : ∀ a b : Nat, [a, b].Sublist [k.inFd, k.outFd, k.errFd] → a = b → a = 0 := by
    intro a b hs hab
    by_cases h0 : a = 0
    · exact h0
    · have := hn.sublist (hs.filter (· != 0))
      subst hab
      simp [h0] at this
  refine ⟨f _ _ ?_, f _ _ ?_, f _ _ ?_⟩
  · exact .cons_cons _ (.cons_cons _ (.cons _ .slnil))
  · exact .cons_cons _ (.cons _ (.cons_cons _ .slnil))
  · exact .cons _ (.cons_cons _ (.cons_cons _ .slnil))

end

end Verif.Kids
