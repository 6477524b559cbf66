import Verif.KidsSpawn
/-! # Whatever callbacks do keeps the children of an event loop in order -/
namespace Verif.Kids
open Verif.Ev (Owner Ep Reg)

section
variable {dbg : Bool} {lp : Nat} {s s' : St} {v v' : View} {recs recs' : Nat → Option Rec} {cur : Option (Nat × BitVec 128)}

/-- The word in a handler's hands is of a child that is there. -/
def Held (cur : Option (Nat × BitVec 128)) (recs : Nat → Option Rec) : Prop := ∀ u w, cur = some (u, w) → ∃ r, recs u = some r

theorem Held.frame (h : Held cur recs) (f : Frame s s' recs recs') : Held cur recs' := by
  intro u w e
  obtain ⟨r, hr⟩ := h u w e
  exact ⟨r, f.recs u r hr⟩

theorem tail_toNat {pid : Nat} (h : pid ≤ 2 ^ 22) : (BitVec.ofNat 32 pid).toNat = pid := by
  rw [BitVec.toNat_ofNat]
  exact Nat.mod_eq_of_lt (by omega)

theorem Inv.spawned (h : Inv dbg lp s v recs cur) (hc : Held cur recs) {k : Kid} (hk : k.possible s) (pidFd : Nat) (refused : List Nat) :
    ∃ s' v' recs', spawned dbg s k pidFd refused = .ok s' ∧ Inv dbg lp s' v' recs' cur ∧ Frame s s' recs recs' := by
  obtain ⟨p1, p2, p3, nd, fr⟩ := hk
  obtain ⟨n1, n2, n3⟩ := fds_cases nd
  have frO : k.outFd ≠ 0 → freshFd s k.outFd := fun h0 => fr _ (by simp [Kid.fds, h0])
  have frE : k.errFd ≠ 0 → freshFd s k.errFd := fun h0 => fr _ (by simp [Kid.fds, h0])
  have frI : k.inFd ≠ 0 → freshFd s k.inFd := fun h0 => fr _ (by simp [Kid.fds, h0])
  unfold Kids.spawned
  dsimp only
  -- the descriptors
  obtain ⟨l1, b1, m1⟩ := h.base.createIf (fd := k.outFd) frO
  obtain ⟨l2, b2, m2⟩ := b1.createIf (fd := k.errFd) (fun h0 => by
    refine ⟨(frE h0).1, (frE h0).2.1, fun hm => ?_⟩
    rcases (createIf_opened _ _ _).1 hm with ⟨a, b⟩ | a
    · exact b (n3 a.symm)
    · exact (frE h0).2.2 a)
  obtain ⟨l3, b3, m3⟩ := b2.createIf (fd := k.inFd) (fun h0 => by
    refine ⟨(frI h0).1, (frI h0).2.1, fun hm => ?_⟩
    rcases (createIf_opened _ _ _).1 hm with ⟨a, b⟩ | hm
    · exact h0 (n2 a)
    · rcases (createIf_opened _ _ _).1 hm with ⟨a, b⟩ | a
      · exact h0 (n1 a)
      · exact (frI h0).2.2 a)
  generalize hs3 : ((s.createIf k.outFd).createIf k.errFd).createIf k.inFd = s3 at b3 ⊢
  have op3 : ∀ n, n ∈ s3.opened ↔ (n = k.inFd ∧ k.inFd ≠ 0) ∨ (n = k.errFd ∧ k.errFd ≠ 0) ∨ (n = k.outFd ∧ k.outFd ≠ 0) ∨ n ∈ s.opened := by
    intro n; rw [← hs3, createIf_opened, createIf_opened, createIf_opened]
  have tr3 : ∃ ts, s3.trace = s.trace ++ ts := by
    rw [← hs3]
    obtain ⟨a, ha⟩ := createIf_trace s k.outFd
    obtain ⟨b, hb⟩ := createIf_trace (s.createIf k.outFd) k.errFd
    obtain ⟨d, hd⟩ := createIf_trace ((s.createIf k.outFd).createIf k.errFd) k.inFd
    exact ⟨a ++ b ++ d, by rw [hd, hb, ha]; simp⟩
  have same3 : s3.mine = s.mine ∧ s3.kids = s.kids ∧ s3.reg = s.reg ∧ s3.mustClose = s.mustClose ∧ s3.mustKill = s.mustKill ∧
      s3.pool = s.pool ∧ s3.pending = s.pending ∧ s3.ended = s.ended := by
    rw [← hs3]
    obtain ⟨a1, a2, a3, a4, a5, a6, a7, a8⟩ := createIf_same ((s.createIf k.outFd).createIf k.errFd) k.inFd
    obtain ⟨c1, c2, c3, c4, c5, c6, c7, c8⟩ := createIf_same (s.createIf k.outFd) k.errFd
    obtain ⟨d1, d2, d3, d4, d5, d6, d7, d8⟩ := createIf_same s k.outFd
    exact ⟨a1.trans (c1.trans d1), a2.trans (c2.trans d2), a3.trans (c3.trans d3), a4.trans (c4.trans d4), a5.trans (c5.trans d5),
      a6.trans (c6.trans d6), a7.trans (c7.trans d7), a8.trans (c8.trans d8)⟩
  generalize hp : (if freshFd { s3 with kids := k.pid :: s.kids } pidFd then pidFd else 0) = p
  have frP : p ≠ 0 → freshFd s3 p := by
    intro h0
    rw [← hp] at h0 ⊢
    by_cases c : freshFd { s3 with kids := k.pid :: s.kids } pidFd
    · rw [if_pos c]; exact c
    · rw [if_neg c] at h0; exact absurd rfl h0
  have b3' : Base { s3 with kids := k.pid :: s.kids } (((v.ownIf k.outFd).ownIf k.errFd).ownIf k.inFd) l3 := b3.other rfl rfl rfl
  obtain ⟨l4, b4, m4⟩ := b3'.createIf (fd := p) frP
  generalize hs4 : St.createIf { s3 with kids := k.pid :: s.kids } p = s4 at b4 ⊢
  have same4 : s4.mine = s.mine ∧ s4.kids = k.pid :: s.kids ∧ s4.reg = s.reg ∧ s4.mustClose = s.mustClose ∧ s4.mustKill = s.mustKill ∧
      s4.pool = s.pool ∧ s4.pending = s.pending ∧ s4.ended = s.ended := by
    obtain ⟨a1, a2, a3, a4, a5, a6, a7, a8⟩ := createIf_same { s3 with kids := k.pid :: s.kids } p
    obtain ⟨c1, c2, c3, c4, c5, c6, c7, c8⟩ := same3
    rw [← hs4]
    exact ⟨a1.trans c1, a2, a3.trans c3, a4.trans c4, a5.trans c5, a6.trans c6, a7.trans c7, a8.trans c8⟩
  have tr4 : ∃ ts, s4.trace = s.trace ++ ts := by
    obtain ⟨a, ha⟩ := tr3
    obtain ⟨b, hb⟩ := createIf_trace { s3 with kids := k.pid :: s.kids } p
    exact ⟨a ++ b, by rw [← hs4, hb, show ({ s3 with kids := k.pid :: s.kids } : St).trace = s3.trace from rfl, ha, List.append_assoc]⟩
  clear hs3 hs4
  obtain ⟨q1, q2, q3, q4, q5, q6, q7, q8⟩ := same4
  -- their table
  let fd : Nat → Nat := fun j => if j = 0 then p else if j = 1 then k.inFd else if j = 2 then k.outFd else k.errFd
  have four : ∀ j < 4, j = 0 ∨ j = 1 ∨ j = 2 ∨ j = 3 := fun j hj => by omega
  have pnew : p ≠ 0 → p ∉ s.opened ∧ p ≠ k.inFd ∧ p ≠ k.outFd ∧ p ≠ k.errFd := by
    intro h0
    have hn := (frP h0).2.2
    rw [op3] at hn
    refine ⟨fun c => hn (Or.inr (Or.inr (Or.inr c))), fun c => hn (Or.inl ⟨c, ?_⟩), fun c => hn (Or.inr (Or.inr (Or.inl ⟨c, ?_⟩))),
      fun c => hn (Or.inr (Or.inl ⟨c, ?_⟩))⟩
    · rw [← c]; exact h0
    · rw [← c]; exact h0
    · rw [← c]; exact h0
  have F : ∀ j < 4, fd j ≠ 0 → fd j ∉ s.opened := by
    intro j hj h0
    rcases four j hj with rfl | rfl | rfl | rfl
    · exact (pnew h0).1
    · exact (frI h0).2.2
    · exact (frO h0).2.2
    · exact (frE h0).2.2
  have small : ∀ j < 4, fd j ≤ 0xffffff := by
    intro j hj
    by_cases h0 : fd j = 0
    · omega
    · rcases four j hj with rfl | rfl | rfl | rfl
      · exact (frP h0).2.1
      · exact (frI h0).2.1
      · exact (frO h0).2.1
      · exact (frE h0).2.1
  have D : ∀ i < 4, ∀ j < 4, fd i = fd j → fd i ≠ 0 → i = j := by
    intro i hi j hj e h0
    rcases four i hi with rfl | rfl | rfl | rfl <;> rcases four j hj with rfl | rfl | rfl | rfl
    · rfl
    · exact absurd e (pnew h0).2.1
    · exact absurd e (pnew h0).2.2.1
    · exact absurd e (pnew h0).2.2.2
    · exact absurd e.symm (pnew (by rw [e] at h0; exact h0)).2.1
    · rfl
    · exact absurd (n1 e) h0
    · exact absurd (n2 e) h0
    · exact absurd e.symm (pnew (by rw [e] at h0; exact h0)).2.2.1
    · exact absurd (n1 e.symm) (by rw [e] at h0; exact h0)
    · rfl
    · exact absurd (n3 e) h0
    · exact absurd e.symm (pnew (by rw [e] at h0; exact h0)).2.2.2
    · exact absurd (n2 e.symm) (by rw [e] at h0; exact h0)
    · exact absurd (n3 e.symm) (by rw [e] at h0; exact h0)
    · rfl
  have O : ∀ n ∈ s.mustClose, n ∈ s.opened := by
    intro n hn
    rw [h.base.opened n, (h.base.loop n).1 hn]
    intro hh; cases hh
  -- the record
  obtain ⟨W, w1, w2, w3, w4, w5⟩ := h.kin.pool
  generalize hm : (⟨packWord p k.inFd k.outFd k.errFd, BitVec.ofNat 32 k.pid, 0⟩ : Meta) = m
  obtain ⟨pl, slot, pl', ea, eb, hslot, hfresh, W', x1, x2, x3, x4⟩ := pool_alloc w1 m
  obtain ⟨t, rfl⟩ : ∃ t : Nat, slot = (t : Int) := ⟨slot.toNat, by omega⟩
  rw [w2] at ea
  rw [q6, ea]
  dsimp only
  rw [eb]
  dsimp only
  have hnew : recs t = none := by
    cases e : recs t with
    | none => rfl
    | some r =>
      obtain ⟨m', y1, _⟩ := w5 t r e
      exact absurd y1 (hfresh m')
  have hpeak : W'.peak ≤ 2 ^ 22 + 1 := by
    rw [x3]
    have := h.kin.room w1 p2 p3 w4 w5
    omega
  have ht : t ≤ 0xffffff := by
    obtain ⟨fl, hi⟩ := x1.inv
    obtain ⟨y1, _, y2⟩ := hi.pos _ ((x4 _).2 (Or.inl rfl))
    simp only at y1 y2
    have h5 : ((t : Int) - 1).toNat < W'.pool.items.length := by
      by_cases hh : ((t : Int) - 1).toNat < W'.pool.items.length
      · exact hh
      · rw [List.getElem?_eq_none (by omega)] at y2; cases y2
    rw [hi.peak.2] at h5
    omega
  obtain ⟨rg, g1, g2⟩ := wakeUp_spec { s4 with pool := pl' } ht fd 7 refused
  have g1' : Kids.wakeUp { s4 with pool := pl' } (t : Int).toNat p k.inFd k.outFd k.errFd 7 refused = .ok { s4 with pool := pl', reg := rg } := g1
  rw [g1']
  have hkill : k.pid ∉ s.mustKill := fun hh => p3 ((h.kin.kids _).2 ((h.kin.kill _).1 hh))
  unfold R.bind
  dsimp only
  refine ⟨_, (((((((v.ownIf k.outFd).ownIf k.errFd).ownIf k.inFd).ownIf p).setKid k.pid true |>.addPipe p k.pid 0).addPipe k.inFd k.pid 1).addPipe k.outFd k.pid 2).addPipe
    k.errFd k.pid 3, fun u => if u = t then some ⟨k.pid, fd⟩ else recs u, rfl, ⟨?_, ?_⟩, ?_⟩
  · -- descriptors
    generalize hs5 : ({ s4 with pool := pl', reg := rg, mustKill := if k.pid ∈ s4.mustKill then s4.mustKill else k.pid :: s4.mustKill } : St) = s5
    have hsame : s5.trace = s4.trace ∧ s5.opened = s4.opened ∧ s5.mine = s4.mine ∧ s5.mustClose = s4.mustClose := by
      rw [← hs5]; exact ⟨rfl, rfl, rfl, rfl⟩
    obtain ⟨z1, z2, z3, z4⟩ := hsame
    generalize hs6 : ((((s5.mustAdd p).mustAdd k.inFd).mustAdd k.outFd).mustAdd k.errFd) = s6
    have hmem : ∀ n, n ∈ s6.mustClose ↔ n ∈ l4 := by
      intro n
      rw [← hs6, mustAdd_mem, mustAdd_mem, mustAdd_mem, mustAdd_mem, z4, q4, m4, m3, m2, m1]
      constructor
      · rintro (a | a | a | a | a)
        · exact Or.inr (Or.inr (Or.inl a))
        · exact Or.inr (Or.inr (Or.inr (Or.inl a)))
        · exact Or.inr (Or.inl a)
        · exact Or.inl a
        · exact Or.inr (Or.inr (Or.inr (Or.inr a)))
      · rintro (a | a | a | a | a)
        · exact Or.inr (Or.inr (Or.inr (Or.inl a)))
        · exact Or.inr (Or.inr (Or.inl a))
        · exact Or.inl a
        · exact Or.inr (Or.inl a)
        · exact Or.inr (Or.inr (Or.inr (Or.inr a)))
    have hnd : s6.mustClose.Nodup := by
      rw [← hs6]
      exact mustAdd_nodup _ _ (mustAdd_nodup _ _ (mustAdd_nodup _ _ (mustAdd_nodup _ _ (by rw [z4, q4]; exact h.base.lnodup))))
    have e6 : s6.trace = s4.trace ∧ s6.opened = s4.opened ∧ s6.mine = s4.mine := by
      rw [← hs6]
      obtain ⟨a1, _, _, a2, _, _, _, _, a3⟩ := mustAdd_same (((s5.mustAdd p).mustAdd k.inFd).mustAdd k.outFd) k.errFd
      obtain ⟨c1, _, _, c2, _, _, _, _, c3⟩ := mustAdd_same ((s5.mustAdd p).mustAdd k.inFd) k.outFd
      obtain ⟨d1, _, _, d2, _, _, _, _, d3⟩ := mustAdd_same (s5.mustAdd p) k.inFd
      obtain ⟨f1, _, _, f2, _, _, _, _, f3⟩ := mustAdd_same s5 p
      exact ⟨a3.trans (c3.trans (d3.trans (f3.trans z1))), a2.trans (c2.trans (d2.trans (f2.trans z2))), a1.trans (c1.trans (d1.trans (f1.trans z3)))⟩
    have b6 : Base s6 ((((v.ownIf k.outFd).ownIf k.errFd).ownIf k.inFd).ownIf p) s6.mustClose :=
      (b4.other (s' := s6) e6.1 e6.2.1 e6.2.2).relist hnd hmem
    have hready : ∀ j < 4, ∀ n, (n ≠ 0 → (n = p ∧ p ≠ 0) ∨ n ∈ l3) → n = fd j →
        ((((v.ownIf k.outFd).ownIf k.errFd).ownIf k.inFd).ownIf p).ready n := by
      intro j hj n hl hn
      unfold View.ready
      rw [(ownIf_same _ _).2, (ownIf_same _ _).2, (ownIf_same _ _).2, (ownIf_same _ _).2]
      by_cases h0 : n = 0
      · exact Or.inl h0
      · refine Or.inr ⟨(b4.loop _).1 ((m4 _).2 (hl h0)), ?_⟩
        cases e : v.pipe n with
        | none => rfl
        | some q =>
          obtain ⟨a, i⟩ := q
          obtain ⟨_, y1, u, r, y2, _, y3⟩ := (h.kin.vpipe _ _ _).1 e
          exact absurd (O _ ((h.kin.must _).2 (Or.inr ⟨h0, u, r, i, y2, y1, y3⟩))) (by rw [hn]; exact F j hj (by rw [← hn]; exact h0))
    refine b6.say (.spawned _ k.pid p k.inFd k.outFd k.errFd ?_ p1 ?_ ?_ ?_ ?_ ?_) ?_
    · rw [(ownIf_same _ _).1, (ownIf_same _ _).1, (ownIf_same _ _).1, (ownIf_same _ _).1]
      cases e : v.kid k.pid with
      | false => rfl
      | true => exact absurd ((h.kin.kids _).2 ((h.kin.vkid _).1 e)) p3
    · exact hready 0 (by omega) _ (fun h0 => Or.inl ⟨rfl, h0⟩) rfl
    · exact hready 1 (by omega) _ (fun h0 => Or.inr ((m3 _).2 (Or.inl ⟨rfl, h0⟩))) rfl
    · exact hready 2 (by omega) _ (fun h0 => Or.inr ((m3 _).2 (Or.inr ((m2 _).2 (Or.inr ((m1 _).2 (Or.inl ⟨rfl, h0⟩))))))) rfl
    · exact hready 3 (by omega) _ (fun h0 => Or.inr ((m3 _).2 (Or.inr ((m2 _).2 (Or.inl ⟨rfl, h0⟩))))) rfl
    · by_cases h0 : p = 0
      · rw [List.filter_cons_of_neg (by simp [h0])]; exact nd
      · rw [List.filter_cons_of_pos (by simp [h0])]
        refine List.nodup_cons.2 ⟨?_, nd⟩
        intro hm
        obtain ⟨_, c1, c2, c3⟩ := pnew h0
        have := (List.mem_filter.1 hm).1
        simp only [List.mem_cons, List.not_mem_nil, or_false] at this
        rcases this with c | c | c
        · exact c1 c
        · exact c2 c
        · exact c3 c
    · rw [(addPipe_same _ _ _ _).2, (addPipe_same _ _ _ _).2, (addPipe_same _ _ _ _).2, (addPipe_same _ _ _ _).2]; rfl
  · -- children
    refine h.kin.add (t := t) (pid := k.pid) (fd := fd) (m := m) (W := W) (W' := W') ⟨p1, p2⟩ p3 F D O hnew ?_ ?_ ?_ w4 w5 x1 ?_ hpeak x4 ?_ ?_ ?_ ?_ ?_ ?_ ?_
    · rw [← hm]
      exact Fields.pack (small 0 (by omega)) (small 1 (by omega)) (small 2 (by omega)) (small 3 (by omega))
    · rw [← hm]; exact tail_toNat p2
    · rintro u w hh rfl
      obtain ⟨r, hr⟩ := hc u w hh
      rw [hnew] at hr; cases hr
    · show W'.pool = St.pool (St.mustAdd _ _)
      rw [(mustAdd_same _ _).2.2.2.2.2.1, (mustAdd_same _ _).2.2.2.2.2.1, (mustAdd_same _ _).2.2.2.2.2.1, (mustAdd_same _ _).2.2.2.2.2.1]
      exact x2
    · intro n
      show n ∈ St.mustClose (St.mustAdd _ _) ↔ _
      rw [mustAdd_mem, mustAdd_mem, mustAdd_mem, mustAdd_mem]
      show _ ∨ _ ∨ _ ∨ _ ∨ n ∈ s4.mustClose ↔ _
      rw [q4]
      constructor
      · rintro (⟨a, b⟩ | ⟨a, b⟩ | ⟨a, b⟩ | ⟨a, b⟩ | a)
        · exact Or.inl ⟨a ▸ b, 3, by omega, a.symm⟩
        · exact Or.inl ⟨a ▸ b, 2, by omega, a.symm⟩
        · exact Or.inl ⟨a ▸ b, 1, by omega, a.symm⟩
        · exact Or.inl ⟨a ▸ b, 0, by omega, a.symm⟩
        · exact Or.inr a
      · rintro (⟨a, j, b, c⟩ | a)
        · rcases four j b with rfl | rfl | rfl | rfl
          · exact Or.inr (Or.inr (Or.inr (Or.inl ⟨c.symm, by rw [← c] at a; exact a⟩)))
          · exact Or.inr (Or.inr (Or.inl ⟨c.symm, by rw [← c] at a; exact a⟩))
          · exact Or.inr (Or.inl ⟨c.symm, by rw [← c] at a; exact a⟩)
          · exact Or.inl ⟨c.symm, by rw [← c] at a; exact a⟩
        · exact Or.inr (Or.inr (Or.inr (Or.inr a)))
    · show St.kids (St.mustAdd _ _) = _
      rw [(mustAdd_same _ _).2.1, (mustAdd_same _ _).2.1, (mustAdd_same _ _).2.1, (mustAdd_same _ _).2.1]
      exact q2
    · show St.mustKill (St.mustAdd _ _) = _
      rw [(mustAdd_same _ _).2.2.2.2.1, (mustAdd_same _ _).2.2.2.2.1, (mustAdd_same _ _).2.2.2.2.1, (mustAdd_same _ _).2.2.2.2.1]
      show (if k.pid ∈ s4.mustKill then _ else _) = _
      rw [q5, if_neg hkill]
    · intro n g hg
      have hg : St.reg (St.mustAdd _ _) n = some g := hg
      rw [(mustAdd_same _ _).2.2.1, (mustAdd_same _ _).2.2.1, (mustAdd_same _ _).2.2.1, (mustAdd_same _ _).2.2.1] at hg
      rcases g2 n g hg with a | a
      · have a : s4.reg n = some g := a
        rw [q3] at a; exact Or.inl a
      · exact Or.inr a
    · show St.pending (St.mustAdd _ _) = _
      rw [(mustAdd_same _ _).2.2.2.2.2.2.1, (mustAdd_same _ _).2.2.2.2.2.2.1, (mustAdd_same _ _).2.2.2.2.2.2.1, (mustAdd_same _ _).2.2.2.2.2.2.1]
      exact q7
    · intro q
      rw [(addPipe_same _ _ _ _).1, (addPipe_same _ _ _ _).1, (addPipe_same _ _ _ _).1, (addPipe_same _ _ _ _).1]
      show (if q = k.pid then true else _) = true ↔ _
      rw [(ownIf_same _ _).1, (ownIf_same _ _).1, (ownIf_same _ _).1, (ownIf_same _ _).1]
      by_cases hq : q = k.pid
      · simp [hq]
      · simp [hq]
    · intro n q i
      rw [addPipe_pipe, addPipe_pipe, addPipe_pipe, addPipe_pipe]
      show (if _ then _ else if _ then _ else if _ then _ else if _ then _ else View.pipe (View.ownIf _ _) n) = _ ↔ _
      rw [(ownIf_same _ _).2, (ownIf_same _ _).2, (ownIf_same _ _).2, (ownIf_same _ _).2]
      have nopipe : ∀ j < 4, fd j ≠ 0 → ∀ a b, v.pipe (fd j) ≠ some (a, b) := by
        intro j hj h0 a b hh
        obtain ⟨_, y1, u, r, y2, _, y3⟩ := (h.kin.vpipe _ _ _).1 hh
        exact F j hj h0 (O _ ((h.kin.must _).2 (Or.inr ⟨h0, u, r, b, y2, y1, y3⟩)))
      have go : ∀ j < 4, n = fd j → fd j ≠ 0 → (some (k.pid, j) = some (q, i) ↔
          (n ≠ 0 ∧ i < 4 ∧ q = k.pid ∧ fd i = n) ∨ v.pipe n = some (q, i)) := by
        intro j hj hn h0
        constructor
        · intro hh
          injection hh with hh
          injection hh with h1 h2
          subst h1; subst h2
          exact Or.inl ⟨hn ▸ h0, hj, rfl, hn.symm⟩
        · rintro (⟨_, a, b, c⟩ | hh)
          · have := D i a j hj (c.trans hn) (by rw [c, hn]; exact h0)
            subst this; rw [b]
          · rw [hn] at hh; exact absurd hh (nopipe j hj h0 q i)
      by_cases c3 : n = k.errFd ∧ k.errFd ≠ 0
      · rw [if_pos c3]; exact go 3 (by omega) c3.1 c3.2
      · rw [if_neg c3]
        by_cases c2 : n = k.outFd ∧ k.outFd ≠ 0
        · rw [if_pos c2]; exact go 2 (by omega) c2.1 c2.2
        · rw [if_neg c2]
          by_cases c1 : n = k.inFd ∧ k.inFd ≠ 0
          · rw [if_pos c1]; exact go 1 (by omega) c1.1 c1.2
          · rw [if_neg c1]
            by_cases c0 : n = p ∧ p ≠ 0
            · rw [if_pos c0]; exact go 0 (by omega) c0.1 c0.2
            · rw [if_neg c0]
              constructor
              · exact Or.inr
              · rintro (⟨a, b, c, d⟩ | hh)
                · exfalso
                  rcases four i b with rfl | rfl | rfl | rfl
                  · exact c0 ⟨d.symm, by rw [← d] at a; exact a⟩
                  · exact c1 ⟨d.symm, by rw [← d] at a; exact a⟩
                  · exact c2 ⟨d.symm, by rw [← d] at a; exact a⟩
                  · exact c3 ⟨d.symm, by rw [← d] at a; exact a⟩
                · exact hh
  · refine ⟨fun u r a => ?_, ?_, ?_, ?_⟩
    · rw [if_neg]
      · exact a
      · rintro rfl; rw [hnew] at a; cases a
    · show St.pending (St.mustAdd _ _) = _
      rw [(mustAdd_same _ _).2.2.2.2.2.2.1, (mustAdd_same _ _).2.2.2.2.2.2.1, (mustAdd_same _ _).2.2.2.2.2.2.1, (mustAdd_same _ _).2.2.2.2.2.2.1]
      exact q7
    · show St.ended (St.mustAdd _ _) = _
      rw [(mustAdd_same _ _).2.2.2.2.2.2.2.1, (mustAdd_same _ _).2.2.2.2.2.2.2.1, (mustAdd_same _ _).2.2.2.2.2.2.2.1, (mustAdd_same _ _).2.2.2.2.2.2.2.1]
      exact q8
    · obtain ⟨a, ha⟩ := tr4
      refine ⟨a ++ [.spawned k.pid p k.inFd k.outFd k.errFd], ?_⟩
      show St.trace (St.mustAdd _ _) ++ _ = _
      rw [(mustAdd_same _ _).2.2.2.2.2.2.2.2, (mustAdd_same _ _).2.2.2.2.2.2.2.2, (mustAdd_same _ _).2.2.2.2.2.2.2.2, (mustAdd_same _ _).2.2.2.2.2.2.2.2]
      show s4.trace ++ _ = _
      rw [ha, List.append_assoc]

theorem Inv.act (h : Inv dbg lp s v recs cur) (hc : Held cur recs) (a : Act) :
    ∃ s' v' recs', act dbg s a = .ok s' ∧ Inv dbg lp s' v' recs' cur ∧ Frame s s' recs recs' := by
  cases a with
  | openOwn fd =>
    show ∃ s' v' recs', (if freshFd s fd then R.ok { s with opened := fd :: s.opened, mine := fd :: s.mine, trace := s.trace ++ [.userOpen fd] }
      else .ok s) = .ok s' ∧ Inv dbg lp s' v' recs' cur ∧ Frame s s' recs recs'
    by_cases hf : freshFd s fd
    · rw [if_pos hf]
      exact ⟨_, _, recs, rfl, ⟨h.base.openOwn hf, h.kin.other rfl rfl rfl rfl rfl rfl rfl rfl⟩, ⟨fun _ _ a => a, rfl, rfl, _, rfl⟩⟩
    · rw [if_neg hf]
      exact ⟨s, v, recs, rfl, h, .refl s recs⟩
  | closeOwn fd =>
    show ∃ s' v' recs', (if fd ∈ s.mine ∧ 2 < fd then
      R.ok { s with opened := s.opened.erase fd, mine := s.mine.erase fd, trace := s.trace ++ [.userClose fd] }
      else .ok s) = .ok s' ∧ Inv dbg lp s' v' recs' cur ∧ Frame s s' recs recs'
    by_cases hf : fd ∈ s.mine ∧ 2 < fd
    · rw [if_pos hf]
      exact ⟨_, _, recs, rfl, ⟨h.base.closeOwn hf.1, h.kin.other rfl rfl rfl rfl rfl rfl rfl rfl⟩, ⟨fun _ _ a => a, rfl, rfl, _, rfl⟩⟩
    · rw [if_neg hf]
      exact ⟨s, v, recs, rfl, h, .refl s recs⟩
  | spawn k p r =>
    cases k with
    | none => exact ⟨s, v, recs, rfl, h, .refl s recs⟩
    | some k =>
      show ∃ s' v' recs', (if k.possible s then Kids.spawned dbg s k p r else .ok s) = .ok s' ∧ Inv dbg lp s' v' recs' cur ∧ Frame s s' recs recs'
      by_cases hk : k.possible s
      · rw [if_pos hk]; exact h.spawned hc hk p r
      · rw [if_neg hk]; exact ⟨s, v, recs, rfl, h, .refl s recs⟩

theorem Inv.acts (h : Inv dbg lp s v recs cur) (hc : Held cur recs) (as : List Act) :
    ∃ s' v' recs', acts dbg s as = .ok s' ∧ Inv dbg lp s' v' recs' cur ∧ Frame s s' recs recs' := by
  induction as generalizing s v recs with
  | nil => exact ⟨s, v, recs, rfl, h, .refl s recs⟩
  | cons a as ih =>
    obtain ⟨s1, v1, recs1, e1, h1, f1⟩ := h.act hc a
    obtain ⟨s2, v2, recs2, e2, h2, f2⟩ := ih h1 (hc.frame f1)
    refine ⟨s2, v2, recs2, ?_, h2, f1.trans f2⟩
    unfold Kids.acts
    rw [e1]
    exact e2

end

end Verif.Kids
