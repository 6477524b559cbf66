import Verif.KidsInv
import Verif.CallArgsCount
/-! # The calls of the event loop keep its children in order -/
namespace Verif.Kids
open Verif.Ev (Owner Ep Reg)

/-! ## The pool -/

theorem live_nodup {dbg : Bool} {W : Pool.World Meta} (h : Pool.Reach link dbg W) : W.live.Nodup :=
  List.Nodup.of_map _ (Pool.live_kept W h).2

theorem pool_alloc {dbg : Bool} {W : Pool.World Meta} (h : Pool.Reach link dbg W) (x : Meta) :
    ∃ p slot p', Pool.alloc link dbg W.pool = some (p, slot) ∧ Pool.put dbg p slot x = some p' ∧ 0 < slot ∧
      (∀ m, (slot, m) ∉ W.live) ∧ ∃ W', Pool.Reach link dbg W' ∧ W'.pool = p' ∧ W'.peak = max W.peak (W.live.length + 1) ∧
        ∀ e, e ∈ W'.live ↔ e = (slot, x) ∨ e ∈ W.live := by
  obtain ⟨p, slot, ea, h0, hn, _⟩ := Pool.alloc_disjoint W h
  have e1 : Pool.step link dbg W .alloc = some ⟨p, (slot, link.fresh) :: W.live, slot, max W.peak (W.live.length + 1)⟩ := by
    unfold Pool.step; rw [ea]; rfl
  have r1 := Pool.Reach.step .alloc h trivial e1
  obtain ⟨W', e2⟩ := Pool.never_fails _ r1 (.write slot x) ⟨_, List.mem_cons_self ..⟩
  have r2 := Pool.Reach.step (.write slot x) r1 ⟨_, List.mem_cons_self ..⟩ e2
  unfold Pool.step at e2
  dsimp only at e2
  cases ep : Pool.put dbg p slot x with
  | none => rw [ep] at e2; cases e2
  | some p' =>
    rw [ep] at e2
    simp only [Option.map_some, Option.some.injEq] at e2
    subst e2
    refine ⟨p, slot, p', ea, ep, h0, hn, _, r2, rfl, rfl, fun e => ?_⟩
    simp only [List.map_cons, if_true, List.mem_cons]
    have : W.live.map (fun e => if e.1 = slot then (slot, x) else e) = W.live := by
      conv => rhs; rw [← List.map_id W.live]
      apply List.map_congr_left
      intro a ha
      rw [if_neg]
      · rfl
      · intro hc; exact hn a.2 (by rw [← hc]; exact ha)
    rw [this]

theorem pool_write {dbg : Bool} {W : Pool.World Meta} (h : Pool.Reach link dbg W) {slot : Int} {m : Meta} (hm : (slot, m) ∈ W.live)
    (x : Meta) : ∃ p', Pool.put dbg W.pool slot x = some p' ∧ ∃ W', Pool.Reach link dbg W' ∧ W'.pool = p' ∧ W'.peak = W.peak ∧
        ∀ e, e ∈ W'.live ↔ e = (slot, x) ∨ (e ∈ W.live ∧ e.1 ≠ slot) := by
  obtain ⟨W', e2⟩ := Pool.never_fails _ h (.write slot x) ⟨_, hm⟩
  have r2 := Pool.Reach.step (.write slot x) h ⟨_, hm⟩ e2
  unfold Pool.step at e2
  dsimp only at e2
  cases ep : Pool.put dbg W.pool slot x with
  | none => rw [ep] at e2; cases e2
  | some p' =>
    rw [ep] at e2
    simp only [Option.map_some, Option.some.injEq] at e2
    subst e2
    refine ⟨p', rfl, _, r2, rfl, rfl, fun e => ?_⟩
    simp only [List.mem_map]
    constructor
    · rintro ⟨a, ha, rfl⟩
      by_cases hc : a.1 = slot
      · left; rw [if_pos hc]
      · right; rw [if_neg hc]; exact ⟨ha, hc⟩
    · rintro (rfl | ⟨ha, hc⟩)
      · exact ⟨_, hm, if_pos rfl⟩
      · exact ⟨e, ha, if_neg hc⟩

theorem pool_free {dbg : Bool} {W : Pool.World Meta} (h : Pool.Reach link dbg W) {slot : Int} {m : Meta} (hm : (slot, m) ∈ W.live) :
    ∃ p', Pool.free link dbg W.pool slot = some p' ∧ ∃ W', Pool.Reach link dbg W' ∧ W'.pool = p' ∧ W'.peak = W.peak ∧
        ∀ e, e ∈ W'.live ↔ (e ∈ W.live ∧ e.1 ≠ slot) := by
  obtain ⟨W', e2⟩ := Pool.never_fails _ h (.free slot) ⟨_, hm⟩
  have r2 := Pool.Reach.step (.free slot) h ⟨_, hm⟩ e2
  unfold Pool.step at e2
  dsimp only at e2
  cases ep : Pool.free link dbg W.pool slot with
  | none => rw [ep] at e2; cases e2
  | some p' =>
    rw [ep] at e2
    simp only [Option.map_some, Option.some.injEq] at e2
    subst e2
    refine ⟨p', rfl, _, r2, rfl, rfl, fun e => ?_⟩
    simp [List.mem_filter]

/-! ## Calls -/

section
variable {dbg : Bool} {lp : Nat} {s s' : St} {v v' : View} {recs : Nat → Option Rec} {cur : Option (Nat × BitVec 128)}

/-- Variables that are not about children. -/
theorem Kin.other (h : Kin dbg lp s v recs cur) (e1 : s'.mustClose = s.mustClose) (e2 : s'.kids = s.kids) (e3 : s'.mustKill = s.mustKill)
    (e4 : s'.pool = s.pool) (e5 : s'.reg = s.reg) (e6 : s'.pending = s.pending) (e7 : v'.kid = v.kid) (e8 : v'.pipe = v.pipe) :
    Kin dbg lp s' v' recs cur where
  lpmem := h.lpmem
  must := by rw [e1]; exact h.must
  lpnot := h.lpnot
  inj := h.inj
  pids := h.pids
  pidok := h.pidok
  kids := by rw [e2]; exact h.kids
  kill := by rw [e3]; exact h.kill
  knodup := by rw [e2]; exact h.knodup
  mnodup := by rw [e3]; exact h.mnodup
  vkid := by rw [e7]; exact h.vkid
  vpipe := by rw [e8]; exact h.vpipe
  pool := by rw [e4]; exact h.pool
  reg := by rw [e5]; exact h.reg
  pend := by rw [e6]; exact h.pend
  calm := by rw [e6]; exact h.calm

/-- Forget a descriptor. -/
def dropFd (recs : Nat → Option Rec) (t k : Nat) (r : Rec) : Nat → Option Rec :=
  fun t' => if t' = t then some { r with fd := fun j => if j = k then 0 else r.fd j } else recs t'

/-- What is left after a descriptor is forgotten. -/
theorem dropFd_some {t k : Nat} {r : Rec} (e : recs t = some r) {t' : Nat} {q : Rec} (h : dropFd recs t k r t' = some q) :
    ∃ q', recs t' = some q' ∧ q.pid = q'.pid ∧ ∀ j, q.fd j = if t' = t ∧ j = k then 0 else q'.fd j := by
  unfold dropFd at h
  by_cases c : t' = t
  · rw [if_pos c] at h
    injection h with h
    subst h
    refine ⟨r, c ▸ e, rfl, fun j => ?_⟩
    simp [c]
  · rw [if_neg c] at h
    exact ⟨q, h, rfl, fun j => by simp [c]⟩

theorem dropFd_of {t k : Nat} {r : Rec} (e : recs t = some r) {t' : Nat} {q' : Rec} (h : recs t' = some q') :
    ∃ q, dropFd recs t k r t' = some q ∧ q.pid = q'.pid ∧ ∀ j, q.fd j = if t' = t ∧ j = k then 0 else q'.fd j := by
  unfold dropFd
  by_cases c : t' = t
  · rw [if_pos c]
    subst c
    rw [e] at h; injection h with h; subst h
    exact ⟨_, rfl, rfl, fun j => by simp⟩
  · rw [if_neg c]
    exact ⟨q', h, rfl, fun j => by simp [c]⟩

/-- The word in use is for this slot. -/
def curIs (cur : Option (Nat × BitVec 128)) (t : Nat) : Prop := ∀ u w, cur = some (u, w) → u = t

theorem wordOf_ne {t t' : Nat} (hc : curIs cur t) (w : BitVec 128) (m : Meta) (h : t' ≠ t) :
    wordOf (some (t, w)) t' m = wordOf cur t' m := by
  unfold wordOf
  cases cur with
  | none => simp [Ne.symm h]
  | some p =>
    obtain ⟨u, w'⟩ := p
    have := hc u w' rfl
    subst this
    simp [Ne.symm h]

/-- A descriptor of a child is closed. -/
theorem Kin.closeFd (h : Kin dbg lp s v recs cur) {t k n : Nat} {r : Rec} {w : BitVec 128} (e : recs t = some r) (hk : k < 4)
    (hn : r.fd k = n) (hc : curIs cur t) (hw : Fields w fun j => if j = k then 0 else r.fd j)
    (mnd : s.mustClose.Nodup)
    (e1 : s'.mustClose = s.mustClose.erase n) (e2 : s'.kids = s.kids) (e3 : s'.mustKill = s.mustKill)
    (e4 : s'.pool = s.pool) (e5 : s'.reg = fun m => if m = n then none else s.reg m) (e6 : s'.pending = s.pending) :
    Kin dbg lp s' (v.drop n) (dropFd recs t k r) (some (t, w)) where
  lpmem := h.lpmem
  must m := by
    rw [e1, mnd.mem_erase_iff, h.must m]
    constructor
    · rintro ⟨hne, hh | ⟨hm, t', r', k', a, b, c⟩⟩
      · exact Or.inl hh
      · obtain ⟨q, q1, q2, q3⟩ := dropFd_of (k := k) e a
        refine Or.inr ⟨hm, t', q, k', q1, b, ?_⟩
        rw [q3, if_neg]
        · exact c
        · rintro ⟨rfl, rfl⟩
          rw [e] at a; injection a with a; subst a
          exact hne (c.symm.trans hn)
    · rintro (hh | ⟨hm, t', q, k', a, b, c⟩)
      · exact ⟨fun hc => h.lpnot t r k e hk (hn.trans (hc.symm.trans hh)), Or.inl hh⟩
      · obtain ⟨q', q1, q2, q3⟩ := dropFd_some e a
        rw [q3] at c
        by_cases hcc : t' = t ∧ k' = k
        · rw [if_pos hcc] at c; exact absurd c.symm hm
        · rw [if_neg hcc] at c
          refine ⟨fun hc => hcc ?_, Or.inr ⟨hm, t', q', k', q1, b, c⟩⟩
          have := h.inj t' q' k' t r k q1 e b hk (c.trans (hc.trans hn.symm)) (by rw [c]; exact hm)
          exact this
  lpnot t' q k' a b := by
    obtain ⟨q', q1, q2, q3⟩ := dropFd_some e a
    rw [q3]
    split
    · have := h.lpmem; omega
    · exact h.lpnot t' q' k' q1 b
  inj t1 r1 k1 t2 r2 k2 a1 a2 b1 b2 c d := by
    obtain ⟨q1, x1, x2, x3⟩ := dropFd_some e a1
    obtain ⟨q2, y1, y2, y3⟩ := dropFd_some e a2
    rw [x3, y3] at c
    rw [x3] at d
    by_cases u : t1 = t ∧ k1 = k
    · rw [if_pos u] at d; exact absurd rfl d
    · rw [if_neg u] at c d
      by_cases u2 : t2 = t ∧ k2 = k
      · rw [if_pos u2] at c; exact absurd c d
      · rw [if_neg u2] at c
        exact h.inj t1 q1 k1 t2 q2 k2 x1 y1 b1 b2 c d
  pids t1 r1 t2 r2 a1 a2 b := by
    obtain ⟨q1, x1, x2, _⟩ := dropFd_some e a1
    obtain ⟨q2, y1, y2, _⟩ := dropFd_some e a2
    exact h.pids t1 q1 t2 q2 x1 y1 (x2 ▸ y2 ▸ b)
  pidok t1 r1 a := by
    obtain ⟨q1, x1, x2, _⟩ := dropFd_some e a
    rw [x2]; exact h.pidok t1 q1 x1
  kids p := by
    rw [e2, h.kids p]
    constructor
    · rintro ⟨t1, r1, a, b⟩
      obtain ⟨q, x1, x2, _⟩ := dropFd_of (k := k) e a
      exact ⟨t1, q, x1, x2.trans b⟩
    · rintro ⟨t1, r1, a, b⟩
      obtain ⟨q, x1, x2, _⟩ := dropFd_some e a
      exact ⟨t1, q, x1, x2 ▸ b⟩
  kill p := by
    rw [e3, h.kill p]
    constructor
    · rintro ⟨t1, r1, a, b⟩
      obtain ⟨q, x1, x2, _⟩ := dropFd_of (k := k) e a
      exact ⟨t1, q, x1, x2.trans b⟩
    · rintro ⟨t1, r1, a, b⟩
      obtain ⟨q, x1, x2, _⟩ := dropFd_some e a
      exact ⟨t1, q, x1, x2 ▸ b⟩
  knodup := by rw [e2]; exact h.knodup
  mnodup := by rw [e3]; exact h.mnodup
  vkid p := by
    show v.kid p = true ↔ _
    rw [h.vkid p]
    constructor
    · rintro ⟨t1, r1, a, b⟩
      obtain ⟨q, x1, x2, _⟩ := dropFd_of (k := k) e a
      exact ⟨t1, q, x1, x2.trans b⟩
    · rintro ⟨t1, r1, a, b⟩
      obtain ⟨q, x1, x2, _⟩ := dropFd_some e a
      exact ⟨t1, q, x1, x2 ▸ b⟩
  vpipe m p i := by
    show (if m = n then none else v.pipe m) = _ ↔ _
    by_cases hm : m = n
    · rw [if_pos hm]
      constructor
      · intro hh; cases hh
      · rintro ⟨a0, a1, t1, r1, a, b, c⟩
        obtain ⟨q, x1, x2, x3⟩ := dropFd_some e a
        rw [x3] at c
        by_cases u : t1 = t ∧ i = k
        · rw [if_pos u] at c; exact absurd c.symm a0
        · rw [if_neg u] at c
          exact absurd (h.inj t1 q i t r k x1 e a1 hk (c.trans (hm.trans hn.symm)) (by rw [c]; exact a0)) u
    · rw [if_neg hm, h.vpipe m p i]
      constructor
      · rintro ⟨a0, a1, t1, r1, a, b, c⟩
        obtain ⟨q, x1, x2, x3⟩ := dropFd_of (k := k) e a
        refine ⟨a0, a1, t1, q, x1, x2.trans b, ?_⟩
        rw [x3, if_neg]
        · exact c
        · rintro ⟨rfl, rfl⟩
          rw [e] at a; injection a with a; subst a
          exact hm (c.symm.trans hn)
      · rintro ⟨a0, a1, t1, r1, a, b, c⟩
        obtain ⟨q, x1, x2, x3⟩ := dropFd_some e a
        refine ⟨a0, a1, t1, q, x1, x2 ▸ b, ?_⟩
        rw [x3] at c
        by_cases u : t1 = t ∧ i = k
        · rw [if_pos u] at c; exact absurd c.symm a0
        · rw [if_neg u] at c; exact c
  pool := by
    obtain ⟨W, w1, w2, w3, w4, w5⟩ := h.pool
    refine ⟨W, w1, w2.trans e4.symm, w3, fun slot m hm => ?_, fun t1 r1 a => ?_⟩
    · obtain ⟨t1, rfl, r1, a⟩ := w4 slot m hm
      obtain ⟨q, x1, _⟩ := dropFd_of (k := k) e a
      exact ⟨t1, rfl, q, x1⟩
    · obtain ⟨q, x1, x2, x3⟩ := dropFd_some e a
      obtain ⟨m, m1, m2, m3⟩ := w5 t1 q x1
      refine ⟨m, m1, x2 ▸ m2, ?_⟩
      by_cases u : t1 = t
      · subst u
        rw [e] at x1; injection x1 with x1; subst x1
        have : r1.fd = fun j => if j = k then 0 else r.fd j := by
          funext j; rw [x3]; simp
        rw [this]
        unfold wordOf
        simpa using hw
      · rw [wordOf_ne hc w m u]
        have : r1.fd = q.fd := by funext j; rw [x3]; simp [u]
        rw [this]; exact m3
  reg m g hg := by
    rw [e5] at hg
    dsimp only at hg
    by_cases hm : m = n
    · rw [if_pos hm] at hg; cases hg
    · rw [if_neg hm] at hg
      obtain ⟨a0, t1, r1, k1, a, b, c, d⟩ := h.reg m g hg
      obtain ⟨q, x1, x2, x3⟩ := dropFd_of (k := k) e a
      refine ⟨a0, t1, q, k1, x1, b, ?_, d⟩
      rw [x3, if_neg]
      · exact c
      · rintro ⟨rfl, rfl⟩
        rw [e] at a; injection a with a; subst a
        exact hm (c.symm.trans hn)
  pend p hp := by
    rw [e6] at hp
    obtain ⟨a0, t1, r1, k1, a, b, c⟩ := h.pend p hp
    obtain ⟨q, x1, _⟩ := dropFd_of (k := k) e a
    exact ⟨a0, t1, q, k1, x1, b, c⟩
  calm := by rw [e6]; exact h.calm

/-- The word in the handler's hands may be any that holds the same descriptors. -/
theorem Kin.setCur (h : Kin dbg lp s v recs cur) {t : Nat} {r : Rec} {w : BitVec 128} (e : recs t = some r) (hc : curIs cur t)
    (hw : Fields w r.fd) : Kin dbg lp s v recs (some (t, w)) :=
  { h with
    pool := by
      obtain ⟨W, w1, w2, w3, w4, w5⟩ := h.pool
      refine ⟨W, w1, w2, w3, w4, fun t1 r1 a => ?_⟩
      obtain ⟨m, m1, m2, m3⟩ := w5 t1 r1 a
      refine ⟨m, m1, m2, ?_⟩
      by_cases u : t1 = t
      · subst u
        rw [e] at a; injection a with a; subst a
        unfold wordOf
        simpa using hw
      · rw [wordOf_ne hc w m u]; exact m3 }

/-- The record of a child is written back. -/
theorem Kin.commit (h : Kin dbg lp s v recs cur) {t : Nat} {r : Rec} {w : BitVec 128} (e : recs t = some r) (hc : curIs cur t)
    (hw : Fields w r.fd) : ∃ m p, Pool.get dbg s.pool t = some m ∧ Pool.put dbg s.pool t { m with word := w } = some p ∧
      Kin dbg lp { s with pool := p } v recs none := by
  obtain ⟨W, w1, w2, w3, w4, w5⟩ := h.pool
  obtain ⟨m, m1, m2, m3⟩ := w5 t r e
  have hg := (Pool.live_kept W w1).1 _ _ m1
  obtain ⟨p', hp, W', x1, x2, x3, x4⟩ := pool_write w1 m1 { m with word := w }
  rw [w2] at hg hp
  refine ⟨m, p', hg, hp, { h with pool := ⟨W', x1, x2, by rw [x3]; exact w3, fun slot m' hm => ?_, fun t1 r1 a => ?_⟩ }⟩
  · rcases (x4 _).1 hm with u | ⟨u, _⟩
    · injection u with u1 u2
      exact ⟨t, u1, r, e⟩
    · exact w4 slot m' u
  · by_cases u : t1 = t
    · subst u
      rw [e] at a; injection a with a; subst a
      exact ⟨_, (x4 _).2 (Or.inl rfl), m2, hw⟩
    · obtain ⟨m', y1, y2, y3⟩ := w5 t1 r1 a
      refine ⟨m', (x4 _).2 (Or.inr ⟨y1, by simp; omega⟩), y2, ?_⟩
      rw [← wordOf_ne hc w m' u] at y3
      unfold wordOf at y3
      simp only [if_neg (Ne.symm u)] at y3
      exact y3

/-- A child without descriptors is forgotten. -/
theorem Kin.exit (h : Kin dbg lp s v recs cur) {t : Nat} {r : Rec} (e : recs t = some r) (hc : curIs cur t)
    (hz : ∀ k < 4, r.fd k = 0) (hp : ∀ p ∈ s.pending, Ev.fdOf p.1 ≠ t) :
    r.pid ∈ s.mustKill ∧ ∃ p, Pool.free link dbg s.pool t = some p ∧
      Kin dbg lp { s with kids := s.kids.erase r.pid, mustKill := s.mustKill.erase r.pid, pool := p } (v.setKid r.pid false)
        (fun t' => if t' = t then none else recs t') none := by
  obtain ⟨W, w1, w2, w3, w4, w5⟩ := h.pool
  obtain ⟨m, m1, m2, m3⟩ := w5 t r e
  obtain ⟨p', hfree, W', x1, x2, x3, x4⟩ := pool_free w1 m1
  rw [w2] at hfree
  have old : ∀ {t1 r1}, (if t1 = t then none else recs t1) = some r1 → t1 ≠ t ∧ recs t1 = some r1 := by
    intro t1 r1 a
    by_cases u : t1 = t
    · rw [if_pos u] at a; cases a
    · rw [if_neg u] at a; exact ⟨u, a⟩
  have pidne : ∀ {t1 r1}, t1 ≠ t → recs t1 = some r1 → r1.pid ≠ r.pid := fun u a hh => u (h.pids _ _ _ _ a e hh)
  have kidsiff : ∀ p, ((∃ t1 r1, recs t1 = some r1 ∧ r1.pid = p) ∧ p ≠ r.pid) ↔
      ∃ t1 r1, (if t1 = t then none else recs t1) = some r1 ∧ r1.pid = p := by
    intro p
    constructor
    · rintro ⟨⟨t1, r1, a, b⟩, hne⟩
      refine ⟨t1, r1, ?_, b⟩
      rw [if_neg]
      · exact a
      · rintro rfl
        rw [e] at a; injection a with a; subst a
        exact hne b.symm
    · rintro ⟨t1, r1, a, b⟩
      obtain ⟨u, a⟩ := old a
      exact ⟨⟨t1, r1, a, b⟩, b ▸ pidne u a⟩
  refine ⟨(h.kill _).2 ⟨t, r, e, rfl⟩, p', hfree, ?_⟩
  exact {
    lpmem := h.lpmem
    must := fun n => by
      show n ∈ s.mustClose ↔ _
      rw [h.must n]
      constructor
      · rintro (hh | ⟨h0, t1, r1, k, a, b, c⟩)
        · exact Or.inl hh
        · refine Or.inr ⟨h0, t1, r1, k, ?_, b, c⟩
          rw [if_neg]
          · exact a
          · rintro rfl
            rw [e] at a; injection a with a; subst a
            exact h0 (c.symm.trans (hz k b))
      · rintro (hh | ⟨h0, t1, r1, k, a, b, c⟩)
        · exact Or.inl hh
        · exact Or.inr ⟨h0, t1, r1, k, (old a).2, b, c⟩
    lpnot := fun t1 r1 k a => h.lpnot t1 r1 k (old a).2
    inj := fun t1 r1 k1 t2 r2 k2 a1 a2 => h.inj t1 r1 k1 t2 r2 k2 (old a1).2 (old a2).2
    pids := fun t1 r1 t2 r2 a1 a2 => h.pids t1 r1 t2 r2 (old a1).2 (old a2).2
    pidok := fun t1 r1 a => h.pidok t1 r1 (old a).2
    kids := fun p => by
      show p ∈ s.kids.erase r.pid ↔ _
      rw [h.knodup.mem_erase_iff, h.kids p, ← kidsiff p, and_comm]
    kill := fun p => by
      show p ∈ s.mustKill.erase r.pid ↔ _
      rw [h.mnodup.mem_erase_iff, h.kill p, ← kidsiff p, and_comm]
    knodup := h.knodup.erase _
    mnodup := h.mnodup.erase _
    vkid := fun p => by
      show (if p = r.pid then false else v.kid p) = true ↔ _
      rw [← kidsiff p, ← h.vkid p]
      by_cases u : p = r.pid
      · simp [u]
      · simp [u]
    vpipe := fun n p i => by
      show v.pipe n = _ ↔ _
      rw [h.vpipe n p i]
      constructor
      · rintro ⟨a0, a1, t1, r1, a, b, c⟩
        refine ⟨a0, a1, t1, r1, ?_, b, c⟩
        rw [if_neg]
        · exact a
        · rintro rfl
          rw [e] at a; injection a with a; subst a
          exact a0 (c.symm.trans (hz i a1))
      · rintro ⟨a0, a1, t1, r1, a, b, c⟩
        exact ⟨a0, a1, t1, r1, (old a).2, b, c⟩
    pool := by
      refine ⟨W', x1, x2, by rw [x3]; exact w3, fun slot m' hm => ?_, fun t1 r1 a => ?_⟩
      · obtain ⟨u, u'⟩ := (x4 _).1 hm
        obtain ⟨t1, rfl, r1, a⟩ := w4 slot m' u
        refine ⟨t1, rfl, r1, ?_⟩
        rw [if_neg]
        · exact a
        · rintro rfl; exact u' rfl
      · obtain ⟨u, a⟩ := old a
        obtain ⟨m', y1, y2, y3⟩ := w5 t1 r1 a
        refine ⟨m', (x4 _).2 ⟨y1, by simp; omega⟩, y2, ?_⟩
        rw [← wordOf_ne hc 0 m' u] at y3
        unfold wordOf at y3
        simp only [if_neg (Ne.symm u)] at y3
        exact y3
    reg := fun n g hg => by
      obtain ⟨a0, t1, r1, k1, a, b, c, d⟩ := h.reg n g hg
      refine ⟨a0, t1, r1, k1, ?_, b, c, d⟩
      rw [if_neg]
      · exact a
      · rintro rfl
        rw [e] at a; injection a with a; subst a
        exact a0 (c.symm.trans (hz k1 b))
    pend := fun p hm => by
      obtain ⟨a0, t1, r1, k1, a, b, c⟩ := h.pend p hm
      refine ⟨a0, t1, r1, k1, ?_, b, c⟩
      rw [if_neg]
      · exact a
      · rintro rfl
        apply hp p hm
        rw [c]
        exact (ud_parts (h.slot_small a).2 b).2
    calm := h.calm }

/-- An entry of the interest list is set. -/
theorem Kin.arm (h : Kin dbg lp s v recs cur) {t k : Nat} {r : Rec} (e : recs t = some r) (hk : k < 4) (want inn : Bool)
    (refused : List Nat) : Kin dbg lp (arm s (r.fd k) (udOf t k) want inn refused) v recs cur := by
  unfold Kids.arm
  split
  · rename_i hh
    exact { h with
      reg := fun n g hg => by
        dsimp only at hg
        by_cases hn : n = r.fd k
        · rw [if_pos hn] at hg
          injection hg with hg
          subst hg
          exact ⟨by rw [hn]; exact hh.1, t, r, k, e, hk, hn.symm, rfl⟩
        · rw [if_neg hn] at hg
          exact h.reg n g hg }
  · exact h

end

end Verif.Kids
