import Verif.VecInv
/-! `_Splice` preserves the invariant and opens exactly the requested gap. -/
namespace Verif.Vec
open Verif.Pack (Cfg)
variable {α : Type}

/-- State after `_Splice` returned a data pointer: the storage is solely ours and holds `A`, a gap of `ins`, `B`, a
gap of `push`. -/
structure Opened (cfg : Cfg) (h : Heap α) (os : List (Hdr α)) (h' : Heap α) (v' : Hdr α) (A B : Cells α)
    (ins push : Nat) : Prop where
  core : Core cfg h' (v' :: os)
  frame : Frame h h' os
  notShared : NotShared v'
  size : v'.size = A.length + ins + B.length + push
  cells : ∃ g1 g2 rest, cellsOf h' v' = some (A ++ g1 ++ B ++ g2 ++ rest) ∧ g1.length = ins ∧ g2.length = push ∧
    (cfg.trivial = false → allNone g1 = true ∧ allNone g2 = true ∧ allNone rest = true)

theorem inv_tail {cfg : Cfg} {h : Heap α} {v os} (hi : Inv cfg h (v :: os)) : ∀ o ∈ os, Cont cfg h o :=
  fun o ho => hi.2 o (List.mem_cons_of_mem _ ho)

theorem items_spec {cfg : Cfg} {h : Heap α} {v : Hdr α} {cs} (hs : Shape cfg h v) (hc : cellsOf h v = some cs) :
    ∃ R, cs = items h v ++ R ∧ (items h v).length = v.size ∧ v.size ≤ cs.length ∧ R = cs.drop v.size := by
  obtain ⟨cs', h1, _, h3⟩ := loadCells_ok hs
  rw [hc] at h1; cases h1
  refine ⟨cs.drop v.size, ?_, ?_, h3, rfl⟩
  · unfold items; rw [hc]; exact (List.take_append_drop _ _).symm
  · unfold items; rw [hc]; simp; omega

theorem cont_items {cfg : Cfg} {h : Heap α} {v : Hdr α} {cs} (_hs : Shape cfg h v) (hc : cellsOf h v = some cs)
    (hct : Cont cfg h v) (ht : cfg.trivial = false) :
    allSome (items h v) = true ∧ allNone (cs.drop v.size) = true := by
  have := hct ht cs hc
  unfold items; rw [hc]; exact this

theorem holdGround_ok {cfg : Cfg} {h : Heap α} {v : Hdr α} {os} {kind : Kind} {A D B P : Cells α} {ins push newSize : Nat}
    (hi : Inv cfg h (v :: os)) (hns : NotShared v) (hk : kind ≠ .clear) (hit : items h v = A ++ D ++ B ++ P)
    (hnew : newSize = A.length + ins + B.length + push) (hroom : newSize ≤ v.room cfg) :
    ∃ h' v', holdGround cfg kind h v newSize A.length D.length ins P.length = .ok (h', v') ∧
      Opened cfg h os h' v' A B ins push := by
  have hsh := hi.1.shape v (by simp)
  obtain ⟨cs, hc, hload, hle⟩ := loadCells_ok hsh
  obtain ⟨R, hcs, hlen, _, hR⟩ := items_spec hsh hc
  have hct := cont_items hsh hc (hi.2 v (by simp))
  rw [hit] at hcs hlen hct
  have hroom' := room_eq hsh hc
  have hsz : v.size = A.length + D.length + B.length + P.length := by rw [← hlen]; simp; omega
  obtain ⟨cs1, g1, g2, rest, e1, e2, l1, l2, l3, l4⟩ := hold_cells (cfg := cfg) (A := A) (D := D) (B := B) (P := P)
    (R := R) (idx := A.length) (del := D.length) (ins := ins) (pop := P.length) (push := push) (oldSize := v.size) kind hk
    rfl rfl rfl hsz (by rw [← hcs]; omega)
    (fun ht => by have := (hct ht).1; simp only [allSome_append, Bool.and_eq_true] at this; exact this.1.1.2)
    (fun ht => by have := (hct ht).1; simp only [allSome_append, Bool.and_eq_true] at this; exact this.2)
    (fun ht => by rw [hR]; exact (hct ht).2)
  rw [← hcs] at e1 l3
  obtain ⟨h', v', s1, s2, s3, s4, s5, s6, s7, s8, s9, s10, s11⟩ := storeCells_ok hi.1 (sole_of_notShared hns hsh) hc l3
  refine ⟨h', v'.setSize newSize, ?_, ⟨setSize_core s2 (by omega), s3, setSize_notShared (s6 hns), ?_, ?_⟩⟩
  · unfold holdGround
    rw [hload]
    simp only [bind, Except.bind, e1, if_neg hk, e2, s1]
  · simp [hnew]
  · exact ⟨g1, g2, rest, by rw [setSize_cells]; exact s4, l1, l2, l4⟩

theorem holdGround_clear_ok {cfg : Cfg} {h : Heap α} {v : Hdr α} {os} (hi : Inv cfg h (v :: os)) (hns : NotShared v) :
    ∃ h' v', holdGround cfg .clear h v 0 0 0 0 0 = .ok (h', v') ∧ Opened cfg h os h' v' [] [] 0 0 := by
  have hsh := hi.1.shape v (by simp)
  obtain ⟨cs, hc, hload, hle⟩ := loadCells_ok hsh
  have hct := hi.2 v (by simp)
  obtain ⟨b', h1, h2, h3, h4⟩ := destroyRange_ok (cfg := cfg) (a := []) (b := cs.take v.size)
      (c := cs.drop v.size) (i := 0) (n := v.size) rfl (by simp; omega) (fun ht => (hct ht cs hc).1)
  rw [List.nil_append, List.take_append_drop] at h1
  obtain ⟨h', v', s1, s2, s3, s4, s5, s6, s7, s8, s9, s10, s11⟩ := storeCells_ok hi.1 (sole_of_notShared hns hsh) hc
    (cs' := b' ++ cs.drop v.size) (by simp [h2]; omega)
  refine ⟨h', v'.setSize 0, ?_, ⟨setSize_core s2 (by omega), s3, setSize_notShared (s6 hns), by simp, ?_⟩⟩
  · unfold holdGround
    rw [hload]
    simp only [bind, Except.bind, destroyDeleted, if_true, h1, List.nil_append, s1]
  · refine ⟨[], [], b' ++ cs.drop v.size, by rw [setSize_cells]; simpa using s4, rfl, rfl, fun ht => ⟨rfl, rfl, ?_⟩⟩
    rw [h3 ht]; simp [(hct ht cs hc).2]

/-- The new storage of `reallocTo`. -/
theorem newStorage_ok {cfg : Cfg} (hv : Valid cfg) {h : Heap α} {vs} {n : Nat} (hc : Core cfg h vs) (hn : n + 1 < 2 ^ 31) :
    let r : M (Heap α × Hdr α) := (if n ≤ cfg.smallCapa then
        .ok (h, (.small n (List.replicate cfg.smallCapa none) : Hdr α))
      else do
        let (h, b, c) ← allocBlock cfg h n
        .ok (h, .big b n c false))
    r = .error .exit ∨
    ∃ h' nv c, r = .ok (h', nv) ∧ Core cfg h' (nv :: vs) ∧ Frame h h' vs ∧ NotShared nv ∧ nv.size = n ∧
      cellsOf h' nv = some (nones c) ∧ n ≤ c := by
  intro r
  by_cases hs : n ≤ cfg.smallCapa
  · right
    refine ⟨h, .small n (List.replicate cfg.smallCapa none), cfg.smallCapa, if_pos hs, core_cons_small hc (by simp) hs,
      Frame.refl _ _, trivial, rfl, rfl, hs⟩
  · rcases allocBlock_ok hv hc (by omega) hn with he | ⟨h', b, c, he, h1, h2, h3, h4⟩
    · left
      show (if n ≤ cfg.smallCapa then _ else _) = _
      rw [if_neg hs, he]; rfl
    · right
      refine ⟨h', .big b n c false, c, ?_, h1, h2, rfl, rfl, h3, h4⟩
      show (if n ≤ cfg.smallCapa then _ else _) = _
      rw [if_neg hs, he]; rfl

theorem reallocTo_ok {cfg : Cfg} (hv : Valid cfg) {h : Heap α} {v : Hdr α} {os} {kind : Kind} {A D B P : Cells α}
    {ins push newSize : Nat}
    (hi : Inv cfg h (v :: os)) (hk : kind ≠ .clear) (hit : items h v = A ++ D ++ B ++ P)
    (hnew : newSize = A.length + ins + B.length + push) (hlt : newSize + 1 < 2 ^ 31) :
    reallocTo cfg kind h v newSize A.length D.length ins P.length = .error .exit ∨
    ∃ h' v', reallocTo cfg kind h v newSize A.length D.length ins P.length = .ok (h', v') ∧
      Opened cfg h os h' v' A B ins push := by
  have hsh := hi.1.shape v (by simp)
  obtain ⟨cs, hc, hload, hle⟩ := loadCells_ok hsh
  obtain ⟨R, hcs, hlen, _, hR⟩ := items_spec hsh hc
  have hct := cont_items hsh hc (hi.2 v (by simp))
  rw [hit] at hcs hlen hct
  have hsz : v.size = A.length + D.length + B.length + P.length := by rw [← hlen]; simp; omega
  have hcs' : cs = A ++ D ++ B ++ (P ++ R) := by rw [hcs]; simp
  unfold reallocTo
  have hnew' := newStorage_ok hv hi.1 hlt
  simp only at hnew'
  generalize hst : (if newSize ≤ cfg.smallCapa then
        (.ok (h, (.small newSize (List.replicate cfg.smallCapa none) : Hdr α)) : M (Heap α × Hdr α))
      else do
        let (h, b, c) ← allocBlock cfg h newSize
        .ok (h, .big b newSize c false)) = st at hnew' ⊢
  rcases hnew' with he | ⟨h1, nv, c, he, hcore1, hfr1, hns1, hsz1, hcell1, hc1⟩
  · left; rw [he]; rfl
  · rw [he]
    simp only [bind, Except.bind]
    -- facts about `v` in the new heap
    have hcv : cellsOf h1 v = some cs := by rw [hfr1 v (by simp)]; exact hc
    have hlv : loadCells h1 v = .ok cs := by unfold loadCells; rw [hcv]
    have hln : loadCells h1 nv = .ok (nones c) := by unfold loadCells; rw [hcell1]
    have hcoreV : Core cfg h1 (v :: nv :: os) := core_swap hcore1
    have hcap : A.length + ins + B.length ≤ c := by omega
    -- final shape of the new slots
    have hshape : ∃ g1 g2 rest : Cells α, A ++ nones ins ++ B ++ nones (c - (A.length + ins + B.length))
        = A ++ g1 ++ B ++ g2 ++ rest ∧ g1.length = ins ∧ g2.length = push ∧
        (cfg.trivial = false → allNone g1 = true ∧ allNone g2 = true ∧ allNone rest = true) := by
      refine ⟨nones ins, nones push, nones (c - (A.length + ins + B.length) - push), ?_, by simp, by simp, by simp⟩
      rw [List.append_assoc (A ++ nones ins ++ B), ← nones_add]
      congr 2; omega
    have hlennew : (A ++ nones ins ++ B ++ nones (c - (A.length + ins + B.length)) : Cells α).length = (nones c : Cells α).length := by
      simp; omega
    cases v with
    | small n0 cs0 =>
      simp only
      obtain ⟨old', r1, r2, r3⟩ := relocate_cells (cfg := cfg) (A := A) (D := D) (B := B) (T := P ++ R) (idx := A.length)
        (del := D.length) (ins := ins) (pop := P.length) (oldSize := (Hdr.small n0 cs0 : Hdr α).size) (c := c) rfl rfl hsz hcap
      rw [hln, hlv]
      simp only
      rw [hcs', r1]
      simp only
      right
      have hcore2 : Core cfg h1 (nv :: os) := core_drop_small hcoreV
      obtain ⟨h2, nv2, s1, s2, s3, s4, s5, s6, s7, s8, s9, s10, s11⟩ := storeCells_ok hcore2
        (sole_of_notShared hns1 (hcore2.shape nv (by simp))) hcell1 hlennew
      refine ⟨h2, nv2, s1, ⟨s2, hfr1.tail.trans s3, s6 hns1, by rw [s5, hsz1, hnew], ?_⟩⟩
      obtain ⟨g1, g2, rest, q1, q2, q3, q4⟩ := hshape
      exact ⟨g1, g2, rest, by rw [s4, q1], q2, q3, q4⟩
    | big b n0 c0 sh =>
      simp only
      have hcontV : Cont cfg h1 (.big b n0 c0 sh) := hfr1.cont (by simp) (hi.2 _ (by simp))
      -- is the cheap move taken, and if so are we the sole owner?
      have huniq : ∃ u, (if cfg.trivial = true then (.ok false : M Bool)
            else if (!sh) = true then .ok true
            else if c0 < newSize then checkUnique cfg h1 b else .ok false) = .ok u ∧
          (u = true → cfg.trivial = false ∧ Sole h1 (.big b n0 c0 sh : Hdr α)) := by
        obtain ⟨blk, hb, _, _, _, _, hs1, hs2⟩ := hcoreV.shape (.big b n0 c0 sh) (by simp)
        by_cases ht : cfg.trivial = true
        · exact ⟨false, by simp [ht], by simp⟩
        · rw [if_neg ht]
          cases sh with
          | false => exact ⟨true, by simp, fun _ => ⟨by simpa using ht, blk, hb, hs1 rfl⟩⟩
          | true =>
            simp only [Bool.not_true, Bool.false_eq_true, if_false]
            split
            · unfold checkUnique
              have hcop : cfg.copiable = true := by
                cases hcp : cfg.copiable with
                | true => rfl
                | false => exact absurd (hs2 hcp) (by simp)
              refine ⟨blk.arc == 0, by rw [hcop, hb]; simp, fun hu => ⟨by simpa using ht, blk, hb, by simpa using hu⟩⟩
            · exact ⟨false, rfl, by simp⟩
      obtain ⟨u, hu1, hu2⟩ := huniq
      rw [hu1]
      simp only
      cases u with
      | true =>
        simp only [if_true]
        obtain ⟨ht, hsole⟩ := hu2 rfl
        rw [hlv]
        simp only
        -- destroy the deleted items
        obtain ⟨D', hd1, hd2, hd3, _⟩ := destroyRange_ok (cfg := cfg) (a := A) (b := D) (c := B ++ P ++ R)
          (i := A.length) (n := D.length) rfl rfl
          (fun _ => by have := (hct ht).1; simp only [allSome_append, Bool.and_eq_true] at this; exact this.1.1.2)
        obtain ⟨P', hp1, hp2, hp3, _⟩ := destroyRange_ok (cfg := cfg) (a := A ++ D' ++ B) (b := P) (c := R)
          (i := n0 - P.length) (n := P.length)
          (by simp only [Hdr.size] at hsz; simp [hd2]; omega) rfl
          (fun _ => by have := (hct ht).1; simp only [allSome_append, Bool.and_eq_true] at this; exact this.2)
        have hdes : destroyDeleted cfg kind cs n0 A.length D.length P.length = .ok (A ++ D' ++ B ++ (P' ++ R)) := by
          unfold destroyDeleted
          rw [if_neg hk, hcs', show A ++ D ++ B ++ (P ++ R) = A ++ D ++ (B ++ P ++ R) by simp, hd1]
          show destroyRange cfg (A ++ D' ++ (B ++ P ++ R)) (n0 - P.length) P.length = _
          rw [show A ++ D' ++ (B ++ P ++ R) = A ++ D' ++ B ++ P ++ R by simp, hp1]
          simp
        rw [show (Hdr.big b n0 c0 sh : Hdr α).size = n0 from rfl, hdes]
        simp only
        rw [hln]
        simp only [if_neg hk]
        obtain ⟨old', r1, r2, r3⟩ := relocate_cells (cfg := cfg) (A := A) (D := D') (B := B) (T := P' ++ R)
          (idx := A.length) (del := D.length) (ins := ins) (pop := P.length) (oldSize := n0) (c := c) rfl hd2
          (by simp only [Hdr.size] at hsz; exact hsz) hcap
        rw [r1]
        simp only
        have hR' := (hct ht).2
        rw [← hR] at hR'
        have hold' : old' = nones (A.length + D.length + B.length + (P.length + R.length)) := by
          rw [r3 ht, hd3 ht, hp3 ht, (allNone_iff R).1 hR']
          simp only [nones_length]
          rw [nones_add, nones_add, nones_add, nones_add]
        obtain ⟨h2, v2, s1, s2, s3, s4, s5, s6, s7, s8, s9, s10, s11⟩ := storeCells_ok hcoreV hsole hcv
          (cs' := old') (by rw [r2, hcs']; simp [hd2, hp2])
        have hv2 : v2 = .big b n0 c0 sh := by
          have := s1
          obtain ⟨blk, hb, _⟩ := hsole
          simp only [storeCells, hb, Except.ok.injEq, Prod.mk.injEq] at this
          exact this.2.symm
        subst hv2
        rw [s1]
        simp only
        have hcell2 : cellsOf h2 nv = some (nones c) := by rw [s3 nv (by simp)]; exact hcell1
        have hcore2 : Core cfg h2 (nv :: .big b n0 c0 sh :: os) := core_swap s2
        obtain ⟨h3, nv3, t1, t2, t3, t4, t5, t6, t7, t8, t9, t10, t11⟩ := storeCells_ok hcore2
          (sole_of_notShared hns1 (hcore2.shape nv (by simp))) hcell2 hlennew
        rw [t1]
        simp only
        have hsole3 : Sole h3 (.big b n0 c0 sh : Hdr α) := by
          -- the block of `v` was not touched by storing into `nv`
          have hcorev3 := core_swap t2
          obtain ⟨blk3, q1, _⟩ := hcorev3.shape (.big b n0 c0 sh) (by simp)
          refine ⟨blk3, q1, ?_⟩
          have hcount3 := hcorev3.count b blk3 q1
          obtain ⟨blk2, w1, w2⟩ := s7
          have hcount2 := s2.count b blk2 w1
          rw [w2] at hcount2
          simp only [List.countP_cons, t9] at hcount3 hcount2
          omega
        obtain ⟨h4, u1, u2, u3⟩ := uniqDealloc_ok (core_swap t2) hsole3 (fun _ => ⟨_, by
          rw [t3 (.big b n0 c0 sh) (by simp), s4, hold']⟩)
        rw [u1]
        right
        refine ⟨h4, nv3, rfl, ⟨u2, ?_, t6 hns1, by rw [t5, hsz1, hnew], ?_⟩⟩
        · exact ((hfr1.tail.trans (fun o ho => s3 o (by simp [ho]))).trans (fun o ho => t3 o (by simp [ho]))).trans
            (fun o ho => u3 o (by simp [ho]))
        · obtain ⟨g1, g2, rest, q1, q2, q3, q4⟩ := hshape
          exact ⟨g1, g2, rest, by rw [u3 nv3 (by simp), t4, q1], q2, q3, q4⟩
      | false =>
        simp only [Bool.false_eq_true, if_false]
        rw [hlv, hln]
        simp only [if_neg hk]
        have hcp := copy_cells (cfg := cfg) (A := A) (D := D) (B := B) (T := P ++ R) (idx := A.length) (del := D.length)
          (ins := ins) (pop := P.length) (oldSize := n0) (c := c) rfl rfl (by simp only [Hdr.size] at hsz; exact hsz) hcap
          (fun ht => by have := (hct ht).1; simp only [allSome_append, Bool.and_eq_true] at this; exact this.1.1.1)
          (fun ht => by have := (hct ht).1; simp only [allSome_append, Bool.and_eq_true] at this; exact this.1.2)
        simp only [bind, Except.bind] at hcp
        rw [show (Hdr.big b n0 c0 sh : Hdr α).size = n0 from rfl, hcs']
        rw [hcp]
        simp only
        obtain ⟨h3, nv3, t1, t2, t3, t4, t5, t6, t7, t8, t9, t10, t11⟩ := storeCells_ok hcore1
          (sole_of_notShared hns1 (hcore1.shape nv (by simp))) hcell1 hlennew
        rw [t1]
        simp only
        obtain ⟨h4, u1, u2, u3⟩ := sharedDealloc_ok (core_swap t2) (Frame.cont t3 (by simp) hcontV)
        rw [u1]
        right
        refine ⟨h4, nv3, rfl, ⟨u2, ?_, t6 hns1, by rw [t5, hsz1, hnew], ?_⟩⟩
        · exact (hfr1.tail.trans (fun o ho => t3 o (by simp [ho]))).trans (fun o ho => u3 o (by simp [ho]))
        · obtain ⟨g1, g2, rest, q1, q2, q3, q4⟩ := hshape
          exact ⟨g1, g2, rest, by rw [u3 nv3 (by simp), t4, q1], q2, q3, q4⟩

end Verif.Vec
