import Verif.VecSplice
/-! `_Splice` as a whole, and filling the gap it opens. -/
namespace Verif.Vec
open Verif.Pack (Cfg)
variable {α : Type}

/-- A completed in-place change of `v` into `v'` whose items are now `xs`. -/
structure Done (cfg : Cfg) (h : Heap α) (os : List (Hdr α)) (h' : Heap α) (v' : Hdr α) (xs : Cells α) : Prop where
  inv : Inv cfg h' (v' :: os)
  frame : Frame h h' os
  items : items h' v' = xs

theorem inv_of_frame {cfg : Cfg} {h h' : Heap α} {os} {v'} (hc : Core cfg h' (v' :: os)) (hf : Frame h h' os)
    (hos : ∀ o ∈ os, Cont cfg h o) (hv : Cont cfg h' v') : Inv cfg h' (v' :: os) := by
  refine ⟨hc, fun w hw => ?_⟩
  rcases List.mem_cons.1 hw with rfl | hw
  · exact hv
  · exact hf.cont hw (hos w hw)

theorem Opened.length_eq {cfg : Cfg} {h : Heap α} {os h' v'} {A B : Cells α} {ins push}
    (ho : Opened cfg h os h' v' A B ins push) :
    ∃ g1 g2 rest, cellsOf h' v' = some (A ++ g1 ++ B ++ g2 ++ rest) ∧ g1.length = ins ∧ g2.length = push ∧
    (cfg.trivial = false → allNone g1 = true ∧ allNone g2 = true ∧ allNone rest = true) ∧
    v'.size = (A ++ g1 ++ B ++ g2).length := by
  obtain ⟨g1, g2, rest, q1, q2, q3, q4⟩ := ho.cells
  exact ⟨g1, g2, rest, q1, q2, q3, q4, by rw [ho.size]; simp [q2, q3]; omega⟩

/-- A gap of size zero needs no filling. -/
theorem Opened.done {cfg : Cfg} {h : Heap α} {v os h' v'} {A B : Cells α} (hi : Inv cfg h (v :: os))
    (ho : Opened cfg h os h' v' A B 0 0) (hA : cfg.trivial = false → allSome A = true ∧ allSome B = true) :
    Done cfg h os h' v' (A ++ B) := by
  obtain ⟨g1, g2, rest, q1, q2, q3, q4, q5⟩ := ho.length_eq
  obtain rfl : g1 = [] := List.length_eq_zero_iff.1 q2
  obtain rfl : g2 = [] := List.length_eq_zero_iff.1 q3
  simp only [List.append_nil] at q1 q5
  have hit : items h' v' = A ++ B := by
    unfold items; rw [q1, q5]; exact List.take_left
  refine ⟨inv_of_frame ho.core ho.frame (inv_tail hi) ?_, ho.frame, hit⟩
  intro ht cs hcs
  rw [q1] at hcs; cases hcs
  obtain ⟨a1, a2⟩ := hA ht
  rw [q5]
  rw [List.take_left', List.drop_left'] <;> try rfl
  exact ⟨by simp [a1, a2], (q4 ht).2.2⟩

theorem items_some {cfg : Cfg} {h : Heap α} {v os} (hi : Inv cfg h (v :: os)) (ht : cfg.trivial = false) :
    allSome (items h v) = true := by
  have hsh := hi.1.shape v (by simp)
  obtain ⟨cs, hc, _, _⟩ := loadCells_ok hsh
  exact (cont_items hsh hc (hi.2 v (by simp)) ht).1

theorem splice_ok {cfg : Cfg} (hv : Valid cfg) {h : Heap α} {v : Hdr α} {os} {kind : Kind} {A D B P : Cells α}
    {ins push : Nat} (hi : Inv cfg h (v :: os)) (hk : kind ≠ .clear) (hit : items h v = A ++ D ++ B ++ P)
    (hlt : A.length + ins + B.length + push + 1 < 2 ^ 31) :
    splice cfg kind h v A.length D.length ins P.length push = .error .exit ∨
    ∃ h' v' null, splice cfg kind h v A.length D.length ins P.length push = .ok (h', v', null) ∧
      ((null = false ∧ Opened cfg h os h' v' A B ins push) ∨
       (null = true ∧ kind = .normal ∧ ins = 0 ∧ push = 0 ∧ Done cfg h os h' v' (A ++ B))) := by
  have hsh := hi.1.shape v (by simp)
  obtain ⟨cs, hc, hload, hle⟩ := loadCells_ok hsh
  obtain ⟨R, hcs, hlen, _, hR⟩ := items_spec hsh hc
  rw [hit] at hcs hlen
  have hsz : v.size = A.length + D.length + B.length + P.length := by rw [← hlen]; simp; omega
  have hns : (if kind = .clear then 0 else v.size + (ins + push) - D.length - P.length)
      = A.length + ins + B.length + push := by rw [if_neg hk]; omega
  have hreal : ∀ r, r = reallocTo cfg kind h v (A.length + ins + B.length + push) A.length D.length ins P.length →
      ∀ r', r' = nonNull r → r' = .error .exit ∨ ∃ h' v' null, r' = .ok (h', v', null) ∧
      ((null = false ∧ Opened cfg h os h' v' A B ins push) ∨
       (null = true ∧ kind = .normal ∧ ins = 0 ∧ push = 0 ∧ Done cfg h os h' v' (A ++ B))) := by
    intro r hr r' hr'
    rcases reallocTo_ok hv hi hk hit rfl hlt with he | ⟨h', v', he, ho⟩
    · left; rw [hr', hr, he]; rfl
    · right; exact ⟨h', v', false, by rw [hr', hr, he]; rfl, Or.inl ⟨rfl, ho⟩⟩
  have hhold : ∀ w : Hdr α, Inv cfg h (w :: os) → NotShared w → items h w = items h v →
      (A.length + ins + B.length + push) ≤ w.room cfg →
      ∀ r, r = holdGround cfg kind h w (A.length + ins + B.length + push) A.length D.length ins P.length →
      ∀ r', r' = nonNull r → r' = .error .exit ∨ ∃ h' v' null, r' = .ok (h', v', null) ∧
      ((null = false ∧ Opened cfg h os h' v' A B ins push) ∨
       (null = true ∧ kind = .normal ∧ ins = 0 ∧ push = 0 ∧ Done cfg h os h' v' (A ++ B))) := by
    intro w hw1 hw2 hw3 hw4 r hr r' hr'
    obtain ⟨h', v', he, ho⟩ := holdGround_ok hw1 hw2 hk (hw3.trans hit) rfl hw4
    right; exact ⟨h', v', false, by rw [hr', hr, he]; rfl, Or.inl ⟨rfl, ho⟩⟩
  unfold splice
  simp only [hns]
  rw [if_neg (by omega)]
  cases v with
  | small n0 cs0 =>
    simp only
    split
    · rename_i hle'
      exact hhold (.small n0 cs0) hi trivial rfl hle' _ rfl _ rfl
    · exact hreal _ rfl _ rfl
  | big b n0 c0 sh =>
    cases sh with
    | false =>
      simp only
      split
      · rename_i hle'
        exact hhold (.big b n0 c0 false) hi rfl rfl hle' _ rfl _ rfl
      · exact hreal _ rfl _ rfl
    | true =>
      simp only
      split
      · rename_i hcap
        split
        · rename_i hcond
          obtain ⟨k1, k2, k3, k4⟩ := hcond
          right
          have hkn : kind = .normal := by
            cases kind with
            | normal => rfl
            | clear => exact absurd rfl hk
            | reserve => exact absurd rfl k1
          have hins : ins = 0 := by omega
          have hpush : push = 0 := by omega
          subst hins; subst hpush
          refine ⟨h, .big b (A.length + 0 + B.length + 0) c0 true, true, rfl, Or.inr ⟨rfl, hkn, rfl, rfl, ?_⟩⟩
          have hcore : Core cfg h ((Hdr.big b n0 c0 true).setSize (A.length + 0 + B.length + 0) :: os) :=
            setSize_core hi.1 (by simp only [Hdr.room]; omega)
          refine ⟨inv_of_frame hcore (Frame.refl _ _) (inv_tail hi) ?_, Frame.refl _ _, ?_⟩
          · intro ht; rw [ht] at k2; cases k2
          · unfold items
            have hc2 : cellsOf h (Hdr.big b (A.length + 0 + B.length + 0) c0 true) = some cs := hc
            rw [hc2]
            simp only [Hdr.size, Option.getD_some] at hsz ⊢
            rw [hcs]
            rcases k4 with k4 | k4
            · have : B = [] := List.length_eq_zero_iff.1 (by simp only [Hdr.size] at k4; omega)
              subst this
              rw [List.append_assoc, List.append_assoc, List.append_assoc, List.append_nil]
              exact List.take_left
            · have : D = [] := List.length_eq_zero_iff.1 k4
              subst this
              rw [List.append_nil, List.append_assoc (A ++ B), List.take_left']
              simp
        · unfold checkUnique
          have hcop : cfg.copiable = true := by
            obtain ⟨_, _, _, _, _, _, _, hs2⟩ := hsh
            cases hcp : cfg.copiable with
            | true => rfl
            | false => exact absurd (hs2 hcp) (by simp)
          obtain ⟨blk, hb, _⟩ := hsh
          rw [hcop, hb]
          simp only [Bool.not_true, Bool.false_eq_true, if_false]
          by_cases ha : blk.arc = 0
          · have hbe : (blk.arc == 0) = true := by simpa using ha
            rw [hbe]
            simp only
            have hcore := markUnique_core hi.1 ⟨blk, hb, ha⟩
            exact hhold (.big b n0 c0 false) (inv_of_frame hcore (Frame.refl _ _) (inv_tail hi) (hi.2 (.big b n0 c0 true) (by simp))) rfl rfl
              hcap.2 _ rfl _ rfl
          · have hbe : (blk.arc == 0) = false := by simpa using ha
            rw [hbe]
            simp only
            split
            · rename_i hz
              right
              refine ⟨h, .big b n0 c0 true, true, rfl, Or.inr ⟨rfl, hz.1, by omega, by omega, hi, Frame.refl _ _, ?_⟩⟩
              have e1 : D = [] := List.length_eq_zero_iff.1 (by omega)
              have e2 : P = [] := List.length_eq_zero_iff.1 (by omega)
              rw [hit, e1, e2]; simp
            · exact hreal _ rfl _ rfl
      · exact hreal _ rfl _ rfl

/-- `clear` -/
theorem clear_ok {cfg : Cfg} {h : Heap α} {v : Hdr α} {os} (hi : Inv cfg h (v :: os)) :
    ∃ h' v', clear cfg h v = .ok (h', v') ∧ Done cfg h os h' v' [] := by
  have hsh := hi.1.shape v (by simp)
  have hcl : clampIdx v.size 0 = 0 := by simp [clampIdx]
  have hcc : ∀ m, clampCnt m 0 = 0 := by intro m; simp [clampCnt]
  have hpp : posPart 0 = 0 := by simp [posPart]
  unfold clear spliceRaw splice
  simp only [hcl, hcc, hpp, if_true]
  rw [if_neg (by omega)]
  simp only [Nat.zero_le, if_true]
  have hhold : NotShared v → ∃ h' v', holdGround cfg .clear h v 0 0 0 0 0 = .ok (h', v') ∧ Done cfg h os h' v' [] := by
    intro hn
    obtain ⟨h', v', e, o⟩ := holdGround_clear_ok hi hn
    exact ⟨h', v', e, by simpa using o.done hi (by simp [allSome])⟩
  cases v with
  | small n cs =>
    obtain ⟨h', v', e, o⟩ := hhold trivial
    exact ⟨h', v', by simp only [e]; rfl, o⟩
  | big b n c sh =>
    cases sh with
    | false =>
      obtain ⟨h', v', e, o⟩ := hhold rfl
      exact ⟨h', v', by simp only [e]; rfl, o⟩
    | true =>
      simp only
      rw [if_neg (by omega)]
      unfold reallocTo
      simp only [Nat.zero_le, if_true, bind, Except.bind]
      obtain ⟨blk, hb, hl, hn, hcap, _, _, hs2⟩ := hsh
      have hu : (if cfg.trivial = true then (.ok false : M Bool)
            else if (!true) = true then .ok true
            else if c < 0 then checkUnique cfg h b else .ok false) = .ok false := by
        simp
      rw [hu]
      simp only [Bool.false_eq_true, if_false]
      have hl1 : loadCells h (.big b n c true : Hdr α) = .ok blk.cells := by simp [loadCells, cellsOf, hb]
      rw [hl1]
      simp only [loadCells, cellsOf, storeCells]
      obtain ⟨h', e1, e2, e3⟩ := sharedDealloc_ok hi.1 (hi.2 _ (by simp))
      simp only [Hdr.size]
      rw [e1]
      refine ⟨h', _, rfl, ?_, e3, ?_⟩
      · refine inv_of_frame (core_cons_small e2 (by simp) (Nat.zero_le _)) e3 (inv_tail hi) ?_
        intro ht cs hcs
        simp only [cellsOf, Option.some.injEq] at hcs
        subst hcs
        simp [Hdr.size, allSome, allNone]
      · simp [items, Hdr.size]

/-- Write `xs` into the first gap. -/
theorem fill_ins {cfg : Cfg} {h : Heap α} {os h' v'} {A B xs : Cells α} {push}
    (ho : Opened cfg h os h' v' A B xs.length push) (hx : cfg.trivial = false → allSome xs = true) :
    ∃ h'' v'', construct cfg h' v' false A.length xs = .ok (h'', v'') ∧ Opened cfg h os h'' v'' (A ++ xs) B 0 push := by
  obtain ⟨g1, g2, rest, q1, q2, q3, q4, q5⟩ := ho.length_eq
  unfold construct
  by_cases h0 : xs.length = 0
  · rw [if_pos h0]
    have hxs : xs = [] := List.length_eq_zero_iff.1 h0
    subst hxs
    exact ⟨h', v', rfl, by simpa using ho⟩
  · rw [if_neg h0, if_neg (by simp)]
    have hload : loadCells h' v' = .ok (A ++ g1 ++ B ++ g2 ++ rest) := by unfold loadCells; rw [q1]
    have hcc : cpyCtor cfg xs 0 (A ++ g1 ++ B ++ g2 ++ rest) A.length xs.length
        = .ok (A ++ xs ++ B ++ g2 ++ rest) := by
      have := cpyCtor_ok (cfg := cfg) (a := []) (b := xs) (c := []) (d := A) (e := g1) (f := B ++ g2 ++ rest)
        (s := 0) (k := A.length) (n := xs.length) rfl rfl rfl (by omega) (fun ht => (q4 ht).1) hx
      simpa using this
    obtain ⟨h2, v2, s1, s2, s3, s4, s5, s6, s7, s8, s9, s10, s11⟩ := storeCells_ok ho.core
      (sole_of_notShared ho.notShared (ho.core.shape v' (by simp))) q1 (cs' := A ++ xs ++ B ++ g2 ++ rest)
      (by simp [q2])
    refine ⟨h2, v2, ?_, ⟨s2, ho.frame.trans s3, s6 ho.notShared, by rw [s5, ho.size]; simp, ?_⟩⟩
    · rw [hload]
      simp only [bind, Except.bind, Int.toNat_natCast, hcc, s1]
    · exact ⟨[], g2, rest, by rw [s4]; simp, rfl, q3, fun ht => ⟨rfl, (q4 ht).2⟩⟩

theorem opened_push_eq {cfg : Cfg} {h : Heap α} {os h' v'} {A B : Cells α} {push}
    (ho : Opened cfg h os h' v' A B 0 push) : Opened cfg h os h' v' (A ++ B) [] push 0 := by
  obtain ⟨g1, g2, rest, q1, q2, q3, q4, q5⟩ := ho.length_eq
  obtain rfl : g1 = [] := List.length_eq_zero_iff.1 q2
  refine ⟨ho.core, ho.frame, ho.notShared, by rw [ho.size]; simp, g2, [], rest, by rw [q1]; simp, q3, rfl, fun ht => ?_⟩
  exact ⟨(q4 ht).2.1, rfl, (q4 ht).2.2⟩

/-- Zero-initialise the first gap. -/
theorem fill_def {cfg : Cfg} {zero : α} {zf : Bool} {h : Heap α} {os h' v'} {A B : Cells α} {n push}
    (ho : Opened cfg h os h' v' A B n push) :
    ∃ h'' v'', defInit cfg zero zf h' v' false A.length n = .ok (h'', v'') ∧
      Opened cfg h os h'' v'' (A ++ List.replicate n (if cfg.trivial && !zf then none else some zero)) B 0 push := by
  obtain ⟨g1, g2, rest, q1, q2, q3, q4, q5⟩ := ho.length_eq
  unfold defInit
  by_cases h0 : n = 0
  · rw [if_pos h0]
    subst h0
    exact ⟨h', v', rfl, by simpa using ho⟩
  · rw [if_neg h0, if_neg (by simp)]
    have hload : loadCells h' v' = .ok (A ++ g1 ++ B ++ g2 ++ rest) := by unfold loadCells; rw [q1]
    rw [hload]
    simp only [bind, Except.bind, Int.toNat_natCast]
    rw [if_pos (by simp; omega)]
    have hp : ∀ x : Option α, patch (A ++ g1 ++ B ++ g2 ++ rest) A.length (List.replicate n x)
        = A ++ List.replicate n x ++ B ++ g2 ++ rest := by
      intro x
      have := patch_append (a := A) (b := g1) (c := B ++ g2 ++ rest) (i := A.length) (xs := List.replicate n x) rfl (by simp [q2])
      simpa using this
    have hsl : slice (A ++ g1 ++ B ++ g2 ++ rest) A.length n = g1 := by
      have := slice_append (a := A) (b := g1) (c := B ++ g2 ++ rest) (i := A.length) (n := n) rfl q2.symm
      simpa using this
    obtain ⟨h2, v2, s1, s2, s3, s4, s5, s6, s7, s8, s9, s10, s11⟩ := storeCells_ok ho.core
      (sole_of_notShared ho.notShared (ho.core.shape v' (by simp))) q1
      (cs' := A ++ List.replicate n (if cfg.trivial && !zf then none else some zero) ++ B ++ g2 ++ rest)
      (by simp [q2])
    refine ⟨h2, v2, ?_, ⟨s2, ho.frame.trans s3, s6 ho.notShared, by rw [s5, ho.size]; simp, ?_⟩⟩
    · by_cases ht : cfg.trivial = true
      · rw [if_pos ht, hp]
        rw [ht] at s1
        cases zf <;> simpa using s1
      · rw [if_neg ht, hsl, if_pos (q4 (by simpa using ht)).1, hp]
        have ht' : cfg.trivial = false := by simpa using ht
        rw [ht'] at s1
        simpa using s1
    · exact ⟨[], g2, rest, by rw [s4]; simp, rfl, q3, fun ht => ⟨rfl, (q4 ht).2⟩⟩

end Verif.Vec
