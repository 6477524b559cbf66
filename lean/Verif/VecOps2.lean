import Verif.VecOps
/-! Operations on two headers: copying, moving one vector into another, splicing from an aliasing source. -/
namespace Verif.Vec
open Verif.Pack (Cfg)
variable {α : Type}

theorem sole_iff {cfg : Cfg} {h : Heap α} {b n c s vs} (hc : Core cfg h (Hdr.big b n c s :: vs)) :
    Sole h (Hdr.big b n c s : Hdr α) ↔ vs.countP (owns b) = 0 := by
  obtain ⟨blk, hb, _⟩ := hc.shape (.big b n c s) (by simp)
  have hcount := hc.count b blk hb
  simp only [List.countP_cons, owns, beq_self_eq_true, if_true] at hcount
  constructor
  · rintro ⟨blk', h1, h2⟩
    rw [hb] at h1; cases h1; omega
  · intro h0; exact ⟨blk, hb, by omega⟩

theorem inv_swap {cfg : Cfg} {h : Heap α} {v w : Hdr α} {vs} (hc : Inv cfg h (v :: w :: vs)) : Inv cfg h (w :: v :: vs) :=
  hc.perm (List.Perm.swap _ _ _)

theorem inv_drop {cfg : Cfg} {h h' : Heap α} {v vs} (hi : Inv cfg h (v :: vs)) (hc : Core cfg h' vs) (hf : Frame h h' vs) :
    Inv cfg h' vs := ⟨hc, fun w hw => hf.cont hw (hi.2 w (List.mem_cons_of_mem _ hw))⟩

theorem destroy_ok {cfg : Cfg} {h : Heap α} {v : Hdr α} {os} (hi : Inv cfg h (v :: os)) :
    ∃ h', destroy cfg h v = .ok h' ∧ Inv cfg h' os ∧ Frame h h' os := by
  cases v with
  | small n cs => exact ⟨h, rfl, inv_drop hi (core_drop_small hi.1) (Frame.refl _ _), Frame.refl _ _⟩
  | big b n c s =>
    obtain ⟨h', e1, e2, e3⟩ := sharedDealloc_ok hi.1 (hi.2 _ (by simp))
    exact ⟨h', e1, inv_drop hi e2 e3, e3⟩

theorem empty_ok {cfg : Cfg} {h : Heap α} {os} (hi : Inv cfg h os) :
    Inv cfg h (emptyHdr cfg :: os) ∧ items h (emptyHdr cfg : Hdr α) = [] := by
  refine ⟨⟨core_cons_small hi.1 (by simp) (Nat.zero_le _), fun w hw => ?_⟩, rfl⟩
  rcases List.mem_cons.1 hw with rfl | hw
  · intro _ cs hcs
    simp only [emptyHdr, cellsOf, Option.some.injEq] at hcs
    subst hcs
    simp [emptyHdr, Hdr.size, allSome, allNone]
  · exact hi.2 w hw

theorem copy_ok {cfg : Cfg} {h : Heap α} {v : Hdr α} {os} (hi : Inv cfg h (v :: os)) (hcp : cfg.copiable = true) :
    ∃ h' v1 v2, copy cfg h v = .ok (h', v1, v2) ∧ Inv cfg h' (v2 :: v1 :: os) ∧ Frame h h' os ∧
      items h' v1 = items h v ∧ items h' v2 = items h v := by
  unfold copy
  rw [if_pos hcp]
  cases v with
  | small n cs =>
    refine ⟨h, .small n cs, .small n cs, rfl, ⟨core_cons_small hi.1 (hi.1.shape (.small n cs) (by simp)).1 (hi.1.shape (.small n cs) (by simp)).2, ?_⟩,
      Frame.refl _ _, rfl, rfl⟩
    intro w hw
    rcases List.mem_cons.1 hw with rfl | hw
    · exact hi.2 _ (by simp)
    · exact hi.2 w hw
  | big b n c s =>
    obtain ⟨blk, hb, q2, q3, q4, q5, q6, q7⟩ := hi.1.shape (.big b n c s) (by simp)
    simp only [hb]
    have hcells : ∀ o : Hdr α, cellsOf (h.set b (some { blk with arc := blk.arc + 1 })) o = cellsOf h o := by
      intro o
      cases o with
      | small => rfl
      | big b' n' c' s' =>
        by_cases hbb : b' = b
        · subst hbb; simp [cellsOf, hb]
        · exact cellsOf_set_ne (by simpa [owns] using hbb)
    refine ⟨_, _, _, rfl, ⟨⟨?_, ?_, ?_⟩, ?_⟩, fun o _ => hcells o, ?_, ?_⟩
    · have hnew : Shape cfg (h.set b (some { blk with arc := blk.arc + 1 })) (.big b n c true) :=
        ⟨_, set_blk_self _ _ _, q2, q3, q4, q5, by simp, by simp [hcp]⟩
      intro w hw
      rcases List.mem_cons.1 hw with rfl | hw
      · exact hnew
      rcases List.mem_cons.1 hw with rfl | hw2
      · exact hnew
      · have hw' := hi.1.shape w (List.mem_cons_of_mem _ hw2)
        cases w with
        | small => exact hw'
        | big b' n' c' s' =>
          by_cases hbb : b' = b
          · subst hbb
            obtain ⟨blk', r1, r2, r3, r4, r5, r6, r7⟩ := hw'
            rw [hb] at r1; cases r1
            refine ⟨_, set_blk_self _ _ _, r2, r3, r4, r5, fun hs => ?_, r7⟩
            -- two owners, so nobody can believe to be alone
            exfalso
            have h0 := r6 hs
            have hcount := hi.1.count b' blk hb
            rw [h0, List.countP_cons] at hcount
            simp only [owns, beq_self_eq_true, if_true] at hcount
            have := countP_zero_of (b := b') (vs := os) (by omega) _ hw2
            simp [owns] at this
          · exact shape_set_ne (by simpa [owns] using hbb) hw'
    · intro b' blk' hb'
      by_cases hbb : b' = b
      · subst hbb
        rw [set_blk_self] at hb'; cases hb'
        have hcount := hi.1.count b' blk hb
        simp only [List.countP_cons, owns, beq_self_eq_true, if_true] at hcount ⊢
        omega
      · rw [set_blk_ne _ _ hbb] at hb'
        have hcount := hi.1.count b' blk' hb'
        simp only [List.countP_cons, owns, beq_iff_eq, if_neg (Ne.symm hbb)] at hcount ⊢
        omega
    · intro b' hb'
      have hbb : b' ≠ b := by intro e; subst e; have := hi.1.fresh b' hb'; rw [hb] at this; cases this
      rw [set_blk_ne _ _ hbb]; exact hi.1.fresh b' hb'
    · have hself : Cont cfg (h.set b (some { blk with arc := blk.arc + 1 })) (.big b n c true) := by
        intro ht cs hcs
        rw [hcells] at hcs
        exact hi.2 (.big b n c s) (by simp) ht cs hcs
      intro w hw
      rcases List.mem_cons.1 hw with rfl | hw
      · exact hself
      rcases List.mem_cons.1 hw with rfl | hw
      · exact hself
      · intro ht cs hcs
        rw [hcells] at hcs
        exact hi.2 w (List.mem_cons_of_mem _ hw) ht cs hcs
    · unfold items; rw [hcells]; rfl
    · unfold items; rw [hcells]; rfl

/-- A literal: a new vector with the given items. -/
theorem initList_ok {cfg : Cfg} (hv : Valid cfg) {h : Heap α} {os} (xs : Cells α) (hi : Inv cfg h os)
    (hx : cfg.trivial = false → allSome xs = true) (hlt : xs.length + 1 < 2 ^ 31) :
    Res cfg h os (initList cfg h xs) xs := by
  unfold initList initSplice
  rw [if_neg (by omega)]
  have := newStorage_ok hv hi.1 hlt
  simp only at this
  generalize (if xs.length ≤ cfg.smallCapa then
        (.ok (h, (.small xs.length (List.replicate cfg.smallCapa none) : Hdr α)) : M (Heap α × Hdr α))
      else do
        let (h, b, c) ← allocBlock cfg h xs.length
        .ok (h, .big b xs.length c false)) = st at this ⊢
  rcases this with he | ⟨h', nv, c, he, h1, h2, h3, h4, h5, h6⟩
  · left; rw [he]; rfl
  · right
    have ho : Opened cfg h os h' nv [] [] xs.length 0 := by
      refine ⟨h1, h2, h3, by simp [h4], nones xs.length, [], nones (c - xs.length), ?_, by simp, rfl, ?_⟩
      · rw [h5]; simp only [List.nil_append, List.append_nil]; rw [← nones_add]; congr 2; omega
      · intro _; exact ⟨allNone_nones _, rfl, allNone_nones _⟩
    obtain ⟨h'', v'', e, o⟩ := fill_ins ho hx
    have hd := o.done (v := emptyHdr cfg) (h := h) (os := os) (empty_ok hi).1 (fun ht => ⟨by simpa using hx ht, by simp [allSome]⟩)
    refine ⟨h'', v'', by rw [he]; exact e, by simpa using hd⟩

/-- `v` has a gap of exactly `src.size` items; move `src` into it. -/
theorem moveIn_ok {cfg : Cfg} {h : Heap α} {v src : Hdr α} {os h' v'} {A B : Cells α} {null : Bool}
    (hi : Inv cfg h (v :: src :: os))
    (ho : (null = false ∧ Opened cfg h (src :: os) h' v' A B src.size 0) ∨
       (null = true ∧ Kind.normal = .normal ∧ src.size = 0 ∧ 0 = 0 ∧ Done cfg h (src :: os) h' v' (A ++ B)))
    (hA : cfg.trivial = false → allSome A = true ∧ allSome B = true) :
    ∃ h'' v'' s'', moveIn cfg h' v' null A.length src = .ok (h'', v'', s'') ∧ Inv cfg h'' (v'' :: s'' :: os) ∧
      Frame h h'' os ∧ items h'' v'' = A ++ items h src ++ B := by
  have hiS : Inv cfg h (src :: v :: os) := inv_swap hi
  have hlen := items_length hiS
  have hsomeS := fun ht => items_some hiS ht
  have hshS := hi.1.shape src (by simp)
  have hctS := hi.2 src (by simp)
  have hfill : ∃ h'' v'', construct cfg h' v' null A.length (items h src) = .ok (h'', v'') ∧
      Done cfg h (src :: os) h'' v'' (A ++ items h src ++ B) := by
    rw [← hlen] at ho; exact fill_ok hi ho hA hsomeS
  have hframe' : Frame h h' (src :: os) := by
    rcases ho with ⟨_, ho⟩ | ⟨_, _, _, _, ho⟩
    · exact ho.frame
    · exact ho.frame
  have hcore' : Core cfg h' (v' :: src :: os) := by
    rcases ho with ⟨_, ho⟩ | ⟨_, _, _, _, ho⟩
    · exact ho.core
    · exact ho.inv.1
  have hemptyC : ∀ h : Heap α, Cont cfg h (emptyHdr cfg : Hdr α) := by
    intro h _ cs hcs
    simp only [emptyHdr, cellsOf, Option.some.injEq] at hcs
    subst hcs
    simp [emptyHdr, Hdr.size, allSome, allNone]
  have hitS : items h src = ((cellsOf h src).getD []).take src.size := rfl
  cases src with
  | small n scs =>
    obtain ⟨h2, v2, e, d⟩ := hfill
    refine ⟨h2, v2, .small n scs, ?_, d.inv, d.frame.tail, d.items⟩
    unfold moveIn
    simp only [bind, Except.bind]
    have : construct cfg h' v' null A.length (scs.take (Hdr.small n scs : Hdr α).size) = .ok (h2, v2) := e
    rw [this]
  | big b n c s =>
    obtain ⟨blk, hb, q2, q3, q4, q5, q6, q7⟩ := hshS
    have hcs : cellsOf h (.big b n c s : Hdr α) = some blk.cells := by simp [cellsOf, hb]
    have hcs' : cellsOf h' (.big b n c s : Hdr α) = some blk.cells := by rw [hframe' _ (by simp), hcs]
    have hloadS : loadCells h' (.big b n c s : Hdr α) = .ok blk.cells := by unfold loadCells; rw [hcs']
    have hit2 : items h (.big b n c s : Hdr α) = blk.cells.take n := by unfold items; rw [hcs]; rfl
    obtain ⟨blk', hb', w2, w3, w4, w5, w6, w7⟩ := hcore'.shape (.big b n c s) (by simp)
    -- is the source taken over?
    have huniq : ∃ u, (if cfg.trivial = true then (.ok false : M Bool)
          else if (!s) = true then .ok true else checkUnique cfg h' b) = .ok u ∧
        (u = true → cfg.trivial = false ∧ Sole h' (.big b n c s : Hdr α)) := by
      by_cases ht : cfg.trivial = true
      · exact ⟨false, by simp [ht], by simp⟩
      · rw [if_neg ht]
        cases s with
        | false => exact ⟨true, by simp, fun _ => ⟨by simpa using ht, blk', hb', w6 rfl⟩⟩
        | true =>
          simp only [Bool.not_true, Bool.false_eq_true, if_false]
          unfold checkUnique
          have hcop : cfg.copiable = true := by
            cases hcp : cfg.copiable with
            | true => rfl
            | false => exact absurd (w7 hcp) (by simp)
          exact ⟨blk'.arc == 0, by rw [hcop, hb']; simp, fun hu => ⟨by simpa using ht, blk', hb', by simpa using hu⟩⟩
    obtain ⟨u, hu1, hu2⟩ := huniq
    unfold moveIn
    simp only [bind, Except.bind]
    rw [hu1]
    simp only [Hdr.size] at ho ⊢
    cases u with
    | false =>
      simp only [Bool.false_eq_true, if_false]
      obtain ⟨h2, v2, e, d⟩ := hfill
      rw [hit2] at e
      rw [hloadS]
      simp only
      rw [e]
      simp only
      obtain ⟨h3, g1, g2, g3⟩ := sharedDealloc_ok (core_swap d.inv.1) (d.inv.2 (.big b n c s) (by simp))
      rw [g1]
      have hinv3 : Inv cfg h3 (v2 :: os) := inv_drop (inv_swap d.inv) g2 g3
      refine ⟨h3, v2, emptyHdr cfg, rfl, inv_swap (empty_ok hinv3).1, d.frame.tail.trans (fun o ho => g3 o (by simp [ho])), ?_⟩
      rw [Frame.items g3 (by simp), d.items]
    | true =>
      simp only [if_true]
      obtain ⟨ht, hsole⟩ := hu2 rfl
      by_cases h0 : n = 0
      · subst h0
        simp only [if_true]
        have hd : Done cfg h (.big b 0 c s :: os) h' v' (A ++ B) := by
          rcases ho with ⟨_, ho⟩ | ⟨_, _, _, _, ho⟩
          · exact ho.done hi hA
          · exact ho
        obtain ⟨h3, g1, g2, g3⟩ := uniqDealloc_ok (core_swap hd.inv.1) hsole (fun _ => ⟨blk.cells.length, by
          rw [hcs', (allNone_iff blk.cells).1]; simp
          have := (hctS ht blk.cells hcs).2
          simpa [Hdr.size] using this⟩)
        rw [g1]
        have hinv3 : Inv cfg h3 (v' :: os) := inv_drop (inv_swap hd.inv) g2 g3
        refine ⟨h3, v', emptyHdr cfg, rfl, inv_swap (empty_ok hinv3).1, hd.frame.tail.trans (fun o ho => g3 o (by simp [ho])), ?_⟩
        rw [Frame.items g3 (by simp), hd.items, hit2]; simp
      · simp only [h0, if_false]
        rcases ho with ⟨rfl, ho⟩ | ⟨_, _, h0', _, _⟩
        · rw [if_neg (by simp), hloadS]
          obtain ⟨g1, g2, rest, r1, r2, r3, r4, r5⟩ := ho.length_eq
          have hloadV : loadCells h' v' = .ok (A ++ g1 ++ B ++ g2 ++ rest) := by unfold loadCells; rw [r1]
          rw [hloadV]
          simp only [Int.toNat_natCast]
          have hsplit : blk.cells = [] ++ items h (.big b n c s : Hdr α) ++ blk.cells.drop n := by
            rw [hit2]; simp
          obtain ⟨b', m1, m2, m3, _⟩ := memcpy_ok (cfg := cfg) (a := []) (b := items h (.big b n c s : Hdr α)) (c := blk.cells.drop n)
            (d := A) (e := g1) (f := B ++ g2 ++ rest) (s := 0) (k := A.length) (n := n) rfl hlen.symm rfl r2.symm (fun ht => (r4 ht).1)
          rw [← hsplit, show A ++ g1 ++ (B ++ g2 ++ rest) = A ++ g1 ++ B ++ g2 ++ rest by simp,
            show A ++ items h (.big b n c s : Hdr α) ++ (B ++ g2 ++ rest) = A ++ items h (.big b n c s : Hdr α) ++ B ++ g2 ++ rest by simp] at m1
          rw [m1]
          simp only
          have hnone : [] ++ b' ++ blk.cells.drop n = nones blk.cells.length := by
            rw [m3 ht, (allNone_iff (blk.cells.drop n)).1 (hctS ht blk.cells hcs).2, List.nil_append, ← nones_add]
            congr 1; simp; omega
          rw [hnone]
          obtain ⟨h2, s2, s21, s22, s23, s24, s25, s26, s27, s28, s29, s210, s211⟩ := storeCells_ok (core_swap hcore') hsole hcs'
            (cs' := nones blk.cells.length) (by simp)
          have hs2 : s2 = .big b n c s := by
            have := s21
            simp only [storeCells, hb', Except.ok.injEq, Prod.mk.injEq] at this
            exact this.2.symm
          subst hs2
          rw [s21]
          simp only
          have hcv2 : cellsOf h2 v' = some (A ++ g1 ++ B ++ g2 ++ rest) := by rw [s23 v' (by simp)]; exact r1
          have hcore2 : Core cfg h2 (v' :: .big b n c s :: os) := core_swap s22
          obtain ⟨h3, v3, t1, t2, t3, t4, t5, t6, t7, t8, t9, t10, t11⟩ := storeCells_ok hcore2
            (sole_of_notShared ho.notShared (hcore2.shape v' (by simp))) hcv2
            (cs' := A ++ items h (.big b n c s : Hdr α) ++ B ++ g2 ++ rest) (by simp [hlen, r2, Hdr.size])
          rw [t1]
          simp only
          have hsole3 : Sole h3 (.big b n c s : Hdr α) := by
            rw [sole_iff (core_swap t2)]
            have := (sole_iff s22).1 s27
            simpa [List.countP_cons, t9] using this
          have hcells3 : cellsOf h3 (.big b n c s : Hdr α) = some (nones blk.cells.length) := by
            rw [t3 (.big b n c s) (by simp), s24]
          obtain ⟨h4, u1, u2, u3⟩ := uniqDealloc_ok (core_swap t2) hsole3 (fun _ => ⟨_, hcells3⟩)
          rw [u1]
          have hc4 : cellsOf h4 v3 = some (A ++ items h (.big b n c s : Hdr α) ++ B ++ g2 ++ rest) := by
            rw [u3 v3 (by simp), t4]
          have hg2 : g2 = [] := List.length_eq_zero_iff.1 r3
          subst hg2
          have hsz4 : v3.size = (A ++ items h (.big b n c s : Hdr α) ++ B).length := by
            rw [t5, ho.size]; simp only [List.length_append, hlen, Hdr.size]; omega
          have hfr4 : Frame h h4 os :=
            ((hframe'.tail.trans (fun o ho => s23 o (by simp [ho]))).trans (fun o ho => t3 o (by simp [ho]))).trans
              (fun o ho => u3 o (by simp [ho]))
          have hinv4 : Inv cfg h4 (v3 :: os) := by
            refine inv_of_frame u2 hfr4 (fun o ho => hi.2 o (by simp [ho])) ?_
            intro _ cs4 hcs4
            rw [hc4] at hcs4; cases hcs4
            rw [hsz4, List.append_nil, List.take_left, List.drop_left]
            exact ⟨by simp [(hA ht).1, (hA ht).2, hsomeS ht], (r4 ht).2.2⟩
          refine ⟨h4, v3, emptyHdr cfg, rfl, inv_swap (empty_ok hinv4).1, hfr4, ?_⟩
          unfold items
          rw [hc4, hsz4, List.append_nil]
          exact List.take_left
        · exact absurd h0' h0

theorem spliceMove_ok {cfg : Cfg} (hv : Valid cfg) {h : Heap α} {v src : Hdr α} {os} (idx del : Int) {d : Nat}
    (hi : Inv cfg h (v :: src :: os)) (hI : 0 ≤ idx ∧ idx ≤ v.size) (hD : d = clampCnt (v.size - idx.toNat) del)
    (hlt : (items h v).length - d + (items h src).length + 1 < 2 ^ 31) :
    spliceMove cfg h v idx del src = .error .exit ∨
    ∃ h' v' s', spliceMove cfg h v idx del src = .ok (h', v', s') ∧ Inv cfg h' (v' :: s' :: os) ∧ Frame h h' os ∧
      items h' v' = (items h v).take idx.toNat ++ items h src ++ (items h v).drop (idx.toNat + d) := by
  have hlen := items_length hi
  have hlenS := items_length (inv_swap hi)
  have hcI : idx.toNat = clampIdx v.size idx := by unfold clampIdx; split <;> (try split) <;> omega
  have hd' : d ≤ v.size - idx.toNat := hD ▸ clampCnt_le _ _
  unfold spliceMove
  rcases spliceRaw_ok hv hi (kind := .normal) (by simp) idx del src.size 0 0 (p := 0) (n := src.size) (m := 0)
    hcI hD (by simp [clampCnt]) (by simp only [posPart]; split <;> omega) rfl (by omega) with he | ⟨h', v', null, he, ho⟩
  · left; rw [he]; rfl
  · right
    obtain ⟨h2, v2, s2, e, g1, g2, g3⟩ := moveIn_ok hi ho
      (fun ht => ⟨allSome_take (items_some hi ht), allSome_take (allSome_drop (items_some hi ht))⟩)
    refine ⟨h2, v2, s2, ?_, g1, g2, ?_⟩
    · rw [he]
      show moveIn cfg h' v' null idx src = _
      rw [← e]
      congr 1
      simp only [List.length_take, hlen]
      omega
    · rwa [List.take_of_length_le (l := (items h v).drop (idx.toNat + d)) (by simp [hlen]; omega)] at g3

theorem appendMove_ok {cfg : Cfg} (hv : Valid cfg) {h : Heap α} {v src : Hdr α} {os} (del : Int)
    (hi : Inv cfg h (v :: src :: os)) (hD : 0 ≤ del ∧ del ≤ v.size)
    (hlt : (items h v).length - del.toNat + (items h src).length + 1 < 2 ^ 31) :
    appendMove cfg h v del src = .error .exit ∨
    ∃ h' v' s', appendMove cfg h v del src = .ok (h', v', s') ∧ Inv cfg h' (v' :: s' :: os) ∧ Frame h h' os ∧
      items h' v' = (items h v).take ((items h v).length - del.toNat) ++ items h src := by
  have hlen := items_length hi
  have hlenS := items_length (inv_swap hi)
  have hp : del.toNat = clampCnt (v.size - 0 - 0) del := by unfold clampCnt; split <;> (try split) <;> omega
  unfold appendMove
  rcases spliceRaw_ok hv hi (kind := .normal) (by simp) 0 0 0 del src.size (i := 0) (d := 0) (n := 0) (m := src.size)
    (by simp [clampIdx]) (by simp [clampCnt]) hp rfl (by simp only [posPart]; split <;> omega) (by omega)
    with he | ⟨h', v', null, he, ho⟩
  · left; rw [he]; rfl
  · right
    have e0 : (items h v).take 0 ++ ((items h v).drop (0 + 0)).take (v.size - 0 - 0 - del.toNat)
        = (items h v).take (v.size - del.toNat) := by simp
    have ho' : (null = false ∧ Opened cfg h (src :: os) h' v' ((items h v).take (v.size - del.toNat)) [] src.size 0) ∨
       (null = true ∧ Kind.normal = .normal ∧ src.size = 0 ∧ 0 = 0 ∧
         Done cfg h (src :: os) h' v' ((items h v).take (v.size - del.toNat) ++ [])) := by
      rcases ho with ⟨a, ho⟩ | ⟨a, b, c, d, ho⟩
      · exact Or.inl ⟨a, by rw [← e0]; exact opened_push_eq ho⟩
      · exact Or.inr ⟨a, b, d, rfl, by rw [← e0, List.append_nil]; exact ho⟩
    obtain ⟨h2, v2, s2, e, g1, g2, g3⟩ := moveIn_ok hi ho' (fun ht => ⟨allSome_take (items_some hi ht), rfl⟩)
    refine ⟨h2, v2, s2, ?_, g1, g2, ?_⟩
    · rw [he]
      show moveIn cfg h' v' null (v.size - del) src = _
      rw [← e]
      congr 1
      simp only [List.length_take, hlen]
      omega
    · rw [g3, hlen]; simp

theorem selfSplice_ok {cfg : Cfg} (hv : Valid cfg) {h : Heap α} {v : Hdr α} {os} (idx del : Int) {d : Nat} (xs : Cells α)
    (hi : Inv cfg h (v :: os)) (hI : 0 ≤ idx ∧ idx ≤ v.size) (hD : d = clampCnt (v.size - idx.toNat) del)
    (hx : cfg.trivial = false → allSome xs = true) (hxl : xs.length + 1 < 2 ^ 31)
    (hlt : (items h v).length - d + xs.length + 1 < 2 ^ 31) :
    Res cfg h os (selfSplice cfg h v idx del xs)
      ((items h v).take idx.toNat ++ xs ++ (items h v).drop (idx.toNat + d)) := by
  unfold selfSplice
  rcases initList_ok hv xs hi hx hxl with he | ⟨h1, t, he, hd⟩
  · left; rw [he]; rfl
  · have hiv : items h1 v = items h v := hd.frame.items (by simp)
    rcases spliceMove_ok hv idx del (inv_swap hd.inv) hI hD (by rw [hd.items, hiv]; exact hlt) with he2 | ⟨h2, v2, s2, he2, g1, g2, g3⟩
    · left; rw [he]
      show (do let (h, v, tmp) ← spliceMove cfg h1 v idx del t; _) = _
      rw [he2]; rfl
    · right
      obtain ⟨h3, e3, i3, f3⟩ := destroy_ok (inv_swap g1)
      refine ⟨h3, v2, ?_, i3, ?_, ?_⟩
      · rw [he]
        show (do let (h, v, tmp) ← spliceMove cfg h1 v idx del t; _) = _
        rw [he2]
        show (do let h ← destroy cfg h2 s2; _) = _
        rw [e3]; rfl
      · exact (hd.frame.tail.trans g2).trans (fun o ho => f3 o (by simp [ho]))
      · rw [Frame.items f3 (by simp), g3, hiv, hd.items]

end Verif.Vec
