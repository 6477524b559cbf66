import Verif.KidsSpec
import Verif.KidsWord
import Verif.PoolProps
/-! # The invariant of the event loop with children -/
namespace Verif.Kids
open Verif.Ev (Owner Ep Reg)

/-- The kernel's table of descriptors agrees with the reader's, and the loop's descriptors are those in `l`. -/
structure Base (s : St) (v : View) (l : List Nat) : Prop where
  reads : Reads s.trace v
  opened : ∀ n, n ∈ s.opened ↔ v.owner n ≠ .free
  mine : ∀ n, n ∈ s.mine ↔ v.owner n = .program
  loop : ∀ n, n ∈ l ↔ v.owner n = .loop
  onodup : s.opened.Nodup
  mnodup : s.mine.Nodup
  lnodup : l.Nodup
  big : ∀ n ∈ l, 2 < n ∧ n ≤ 0xffffff

/-- A child as the loop knows it: its number and its descriptors, 0 for none: the pid descriptor, then the streams. -/
structure Rec where
  pid : Nat
  fd : Nat → Nat

/-- The word in use for a slot: that in the hands of the handler, or that in the pool. -/
def wordOf (cur : Option (Nat × BitVec 128)) (slot : Nat) (m : Meta) : BitVec 128 :=
  match cur with
  | some (t, w) => if t = slot then w else m.word
  | none => m.word

/-- The children of the loop `lp`, one for each slot in use. -/
structure Kin (dbg : Bool) (lp : Nat) (s : St) (v : View) (recs : Nat → Option Rec) (cur : Option (Nat × BitVec 128)) : Prop where
  lpmem : 2 < lp
  must : ∀ n, n ∈ s.mustClose ↔ n = lp ∨ (n ≠ 0 ∧ ∃ t r k, recs t = some r ∧ k < 4 ∧ r.fd k = n)
  lpnot : ∀ t r k, recs t = some r → k < 4 → r.fd k ≠ lp
  inj : ∀ t r k t' r' k', recs t = some r → recs t' = some r' → k < 4 → k' < 4 → r.fd k = r'.fd k' → r.fd k ≠ 0 → t = t' ∧ k = k'
  pids : ∀ t r t' r', recs t = some r → recs t' = some r' → r.pid = r'.pid → t = t'
  pidok : ∀ t r, recs t = some r → 0 < r.pid ∧ r.pid ≤ 2 ^ 22
  kids : ∀ p, p ∈ s.kids ↔ ∃ t r, recs t = some r ∧ r.pid = p
  kill : ∀ p, p ∈ s.mustKill ↔ ∃ t r, recs t = some r ∧ r.pid = p
  knodup : s.kids.Nodup
  mnodup : s.mustKill.Nodup
  vkid : ∀ p, v.kid p = true ↔ ∃ t r, recs t = some r ∧ r.pid = p
  vpipe : ∀ n p i, v.pipe n = some (p, i) ↔ n ≠ 0 ∧ i < 4 ∧ ∃ t r, recs t = some r ∧ r.pid = p ∧ r.fd i = n
  pool : ∃ W, Pool.Reach link dbg W ∧ W.pool = s.pool ∧ W.peak ≤ 2 ^ 22 + 1 ∧
    (∀ slot m, (slot, m) ∈ W.live → ∃ t : Nat, slot = (t : Int) ∧ ∃ r, recs t = some r) ∧
    ∀ t r, recs t = some r → ∃ m, ((t : Int), m) ∈ W.live ∧ m.tail.toNat = r.pid ∧ Fields (wordOf cur t m) r.fd
  reg : ∀ n g, s.reg n = some g → n ≠ 0 ∧ ∃ t r k, recs t = some r ∧ k < 4 ∧ r.fd k = n ∧ g.ud = udOf t k
  pend : ∀ p ∈ s.pending, p.2.err = false ∧ ∃ t r k, recs t = some r ∧ k < 4 ∧ p.1 = udOf t k
  calm : s.pending.Pairwise fun p q => ¬ About p q

/-! ## Descriptors -/

theorem Base.free {s : St} {v : View} {l : List Nat} (h : Base s v l) {n : Nat} (hn : n ∉ s.opened) :
    v.owner n = .free := by
  by_cases e : v.owner n = .free
  · exact e
  · exact absurd ((h.opened n).2 e) hn

theorem Base.perm {s : St} {v : View} {l l' : List Nat} (h : Base s v l) (p : l.Perm l') : Base s v l' where
  reads := h.reads
  opened := h.opened
  mine := h.mine
  loop n := by rw [← h.loop n]; exact p.symm.mem_iff
  onodup := h.onodup
  mnodup := h.mnodup
  lnodup := p.nodup_iff.1 h.lnodup
  big n hn := h.big n (p.mem_iff.2 hn)

/-- Variables that are not about descriptors. -/
theorem Base.other {s s' : St} {v : View} {l : List Nat} (h : Base s v l) (e1 : s'.trace = s.trace) (e2 : s'.opened = s.opened)
    (e3 : s'.mine = s.mine) : Base s' v l where
  reads := e1 ▸ h.reads
  opened n := by rw [e2]; exact h.opened n
  mine n := by rw [e3]; exact h.mine n
  loop := h.loop
  onodup := by rw [e2]; exact h.onodup
  mnodup := by rw [e3]; exact h.mnodup
  lnodup := h.lnodup
  big := h.big

/-- Something is observed that is not about owners. -/
theorem Base.say {s : St} {v v' : View} {l : List Nat} (h : Base s v l) {o : Obs} (st : v.Step o v') (e : v'.owner = v.owner) :
    Base (s.say o) v' l where
  reads := h.reads.snoc st
  opened n := by rw [e]; exact h.opened n
  mine n := by rw [e]; exact h.mine n
  loop n := by rw [e]; exact h.loop n
  onodup := h.onodup
  mnodup := h.mnodup
  lnodup := h.lnodup
  big := h.big

theorem Base.create {s : St} {v : View} {l : List Nat} (h : Base s v l) {fd : Nat} (hf : freshFd s fd) :
    Base (s.create fd) (v.own fd .loop) (fd :: l) where
  reads := h.reads.snoc (.create v fd (h.free hf.2.2))
  opened n := by
    show n ∈ fd :: s.opened ↔ (if n = fd then Owner.loop else v.owner n) ≠ .free
    by_cases e : n = fd
    · simp [e]
    · rw [if_neg e, ← h.opened n]; simp [e]
  mine n := by
    show n ∈ s.mine ↔ (if n = fd then Owner.loop else v.owner n) = .program
    by_cases e : n = fd
    · rw [if_pos e, h.mine n, e, h.free hf.2.2]; simp
    · rw [if_neg e, ← h.mine n]
  loop n := by
    show n ∈ fd :: l ↔ (if n = fd then Owner.loop else v.owner n) = .loop
    by_cases e : n = fd
    · simp [e]
    · rw [if_neg e, ← h.loop n]; simp [e]
  onodup := List.nodup_cons.2 ⟨hf.2.2, h.onodup⟩
  mnodup := h.mnodup
  lnodup := List.nodup_cons.2 ⟨fun hm => (by
    have := (h.loop fd).1 hm
    rw [h.free hf.2.2] at this; cases this), h.lnodup⟩
  big n hn := by
    rcases List.mem_cons.1 hn with e | e
    · subst e; exact ⟨hf.1, hf.2.1⟩
    · exact h.big n e

theorem Base.openOwn {s : St} {v : View} {l : List Nat} (h : Base s v l) {fd : Nat} (hf : freshFd s fd) :
    Base { s with opened := fd :: s.opened, mine := fd :: s.mine, trace := s.trace ++ [.userOpen fd] } (v.own fd .program) l where
  reads := h.reads.snoc (.userOpen v fd (h.free hf.2.2))
  opened n := by
    show n ∈ fd :: s.opened ↔ (if n = fd then Owner.program else v.owner n) ≠ .free
    by_cases e : n = fd
    · simp [e]
    · rw [if_neg e, ← h.opened n]; simp [e]
  mine n := by
    show n ∈ fd :: s.mine ↔ (if n = fd then Owner.program else v.owner n) = .program
    by_cases e : n = fd
    · simp [e]
    · rw [if_neg e, ← h.mine n]; simp [e]
  loop n := by
    show n ∈ l ↔ (if n = fd then Owner.program else v.owner n) = .loop
    by_cases e : n = fd
    · rw [if_pos e, h.loop n, e, h.free hf.2.2]; simp
    · rw [if_neg e, ← h.loop n]
  onodup := List.nodup_cons.2 ⟨hf.2.2, h.onodup⟩
  mnodup := List.nodup_cons.2 ⟨fun hm => (by
    have := (h.mine fd).1 hm
    rw [h.free hf.2.2] at this; cases this), h.mnodup⟩
  lnodup := h.lnodup
  big := h.big

theorem Base.closeOwn {s : St} {v : View} {l : List Nat} (h : Base s v l) {fd : Nat} (hf : fd ∈ s.mine) :
    Base { s with opened := s.opened.erase fd, mine := s.mine.erase fd, trace := s.trace ++ [.userClose fd] } (v.own fd .free) l where
  reads := h.reads.snoc (.userClose v fd ((h.mine fd).1 hf))
  opened n := by
    show n ∈ s.opened.erase fd ↔ (if n = fd then Owner.free else v.owner n) ≠ .free
    rw [h.onodup.mem_erase_iff]
    by_cases e : n = fd
    · simp [e]
    · rw [if_neg e, ← h.opened n]; simp [e]
  mine n := by
    show n ∈ s.mine.erase fd ↔ (if n = fd then Owner.free else v.owner n) = .program
    rw [h.mnodup.mem_erase_iff]
    by_cases e : n = fd
    · simp [e]
    · rw [if_neg e, ← h.mine n]; simp [e]
  loop n := by
    show n ∈ l ↔ (if n = fd then Owner.free else v.owner n) = .loop
    by_cases e : n = fd
    · rw [if_pos e, h.loop n, e, (h.mine fd).1 hf]; simp
    · rw [if_neg e, ← h.loop n]
  onodup := h.onodup.erase _
  mnodup := h.mnodup.erase _
  lnodup := h.lnodup
  big := h.big

/-- `close` of a descriptor of the loop. -/
theorem Base.close {s : St} {v : View} {l : List Nat} (h : Base s v l) {fd : Nat} (hf : fd ∈ l) :
    ∃ s', close s fd = .ok s' ∧ Base s' (v.drop fd) (l.erase fd) ∧
      s' = { s with opened := s.opened.erase fd, mine := s.mine.erase fd,
                    reg := fun n => if n = fd then none else s.reg n, trace := s.trace ++ [.close fd] } := by
  refine ⟨_, if_pos (h.big fd hf).1, ?_, rfl⟩
  have hown := (h.loop fd).1 hf
  exact {
    reads := h.reads.snoc (.close v fd hown)
    opened := fun n => by
      show n ∈ s.opened.erase fd ↔ (if n = fd then Owner.free else v.owner n) ≠ .free
      rw [h.onodup.mem_erase_iff]
      by_cases e : n = fd
      · simp [e]
      · rw [if_neg e, ← h.opened n]; simp [e]
    mine := fun n => by
      show n ∈ s.mine.erase fd ↔ (if n = fd then Owner.free else v.owner n) = .program
      rw [h.mnodup.mem_erase_iff]
      by_cases e : n = fd
      · simp [e]
      · rw [if_neg e, ← h.mine n]; simp [e]
    loop := fun n => by
      show n ∈ l.erase fd ↔ (if n = fd then Owner.free else v.owner n) = .loop
      rw [h.lnodup.mem_erase_iff]
      by_cases e : n = fd
      · simp [e]
      · rw [if_neg e, ← h.loop n]; simp [e]
    onodup := h.onodup.erase _
    mnodup := h.mnodup.erase _
    lnodup := h.lnodup.erase _
    big := fun n hn => h.big n (List.mem_of_mem_erase hn) }

/-! ## Slots -/

/-- No more slots are in use than there are process numbers, so a slot fits where it is packed. -/
theorem Kin.slot_small {dbg : Bool} {lp : Nat} {s : St} {v : View} {recs : Nat → Option Rec} {cur : Option (Nat × BitVec 128)}
    (h : Kin dbg lp s v recs cur) {t : Nat} {r : Rec} (e : recs t = some r) : 0 < t ∧ t ≤ 0xffffff := by
  obtain ⟨W, hr, _, hp, _, h2⟩ := h.pool
  obtain ⟨m, hm, _⟩ := h2 t r e
  obtain ⟨fl, hi⟩ := hr.inv
  obtain ⟨h3, _, h4⟩ := hi.pos _ hm
  have h5 : ((t : Int) - 1).toNat < W.pool.items.length := by
    by_cases hh : ((t : Int) - 1).toNat < W.pool.items.length
    · exact hh
    · rw [List.getElem?_eq_none (by omega)] at h4; cases h4
  rw [hi.peak.2] at h5
  simp only at h3
  omega

end Verif.Kids
