import Verif.VecExprSpec
/-! # Proofs about `+`, `slice`, `substr`, `view_swap` -/
namespace Verif.Vec
open Verif.Pack (Cfg)
variable {α : Type}

theorem val_some {t : Spec.SState α} {i xs} (h : Spec.val t i = some xs) : t.vars[i]? = some (some xs) := by
  unfold Spec.val at h
  split at h
  · rename_i ys hy; cases h; exact hy
  · cases h

theorem spec_cons {ty : Spec.Ty} {zero : α} {t t' : Spec.SState α} {op ops} (h : Spec.step ty zero t op = .next t') :
    Spec.run ty zero t (op :: ops) = Spec.run ty zero t' ops := by
  simp only [Spec.run, h]

/-- moving a variable out and destroying it -/
theorem spec_tail {ty : Spec.Ty} {zero : α} {t : Spec.SState α} {i xs} (h : t.vars[i]? = some (some xs)) :
    Spec.run ty zero t [.moveNew i, .drop i] = .next { t with vars := t.vars.set i none ++ [some xs] } := by
  have hlt := (List.getElem?_eq_some_iff.1 h).1
  have h2 : (t.vars.set i (some []) ++ [some xs])[i]? = some (some []) := by
    rw [List.getElem?_append_left (by simpa using hlt), List.getElem?_set_self hlt]
  simp only [Spec.run, Spec.step, h, h2]
  rw [List.set_append_left _ _ (by simpa using hlt), List.set_set]

theorem get_set_self {l : List (Option (Spec.Val α))} {i xs ys} (h : l[i]? = some (some xs)) :
    (l.set i (some ys))[i]? = some (some ys) :=
  List.getElem?_set_self (List.getElem?_eq_some_iff.1 h).1

/-- an operation on one variable, which is then moved out -/
theorem spec_edit_tail {ty : Spec.Ty} {zero : α} {t : Spec.SState α} {i xs ys} {op : Op α}
    (h : t.vars[i]? = some (some xs)) (hs : Spec.step ty zero t op = .next { t with vars := t.vars.set i (some ys) }) :
    Spec.run ty zero t [op, .moveNew i, .drop i] = .next { t with vars := t.vars.set i none ++ [some ys] } := by
  rw [spec_cons hs, spec_tail (get_set_self h)]
  simp only [List.set_set]

/-- As `Match`, with the second invariant of `step_refines` kept. -/
def MatchZ (cfg : Cfg) (r : M (State α)) : Spec.R (Spec.SState α) → Prop
  | .next t => r = .error .exit ∨ ∃ s, r = .ok s ∧ Abs cfg s t ∧ Zero (live s.vars)
  | .trap => r = .error .exit ∨ r = .error .trap
  | .illegal => True

theorem MatchZ.of {cfg : Cfg} {r : M (State α)} {q} (hm : Match cfg r q)
    (hz : q ≠ .illegal → ∀ s', r = .ok s' → Zero (live s'.vars)) : MatchZ cfg r q := by
  cases q with
  | next t =>
    rcases hm with he | ⟨s, he, ha⟩
    · exact Or.inl he
    · exact Or.inr ⟨s, he, ha, hz (by simp) s he⟩
  | trap => exact hm
  | illegal => trivial

theorem give_match {cfg : Cfg} {r : M (State α)} {t : Spec.SState α} {xs}
    (h : xs.length + 1 < 2 ^ 31 → MatchZ cfg r (.next { t with vars := t.vars ++ [some xs] })) :
    MatchZ cfg r (Spec.give t xs) := by
  unfold Spec.give
  split
  · rename_i hl; exact h hl
  · trivial

theorem step_matchZ {cfg : Cfg} (hv : Valid cfg) (zero : α) {s : State α} {t} (ha : Abs cfg s t) (hz : Zero (live s.vars))
    (op : Op α) : MatchZ cfg (step cfg zero s op) (Spec.step (tyOf cfg) zero t op) :=
  .of (step_refines hv zero ha hz op) fun _ _ e => step_zero zero ha.inv hz op e

theorem run_zero {cfg : Cfg} (hv : Valid cfg) (zero : α) {s s' : State α} {t} (ha : Abs cfg s t) (hz : Zero (live s.vars))
    {ops : List (Op α)} (hl : Spec.run (tyOf cfg) zero t ops ≠ .illegal) (e : run cfg zero s ops = .ok s') :
    Zero (live s'.vars) := by
  induction ops generalizing s t with
  | nil => cases e; exact hz
  | cons op ops ih =>
    have hs := step_refines hv zero ha hz op
    obtain ⟨s1, e1, e2⟩ := bind_ok (show (do let s ← step cfg zero s op; run cfg zero s ops) = .ok s' from e)
    simp only [Spec.run] at hl
    cases hq : Spec.step (tyOf cfg) zero t op with
    | next t' =>
      rw [hq] at hs hl
      rcases hs with he | ⟨s2, he, ha'⟩
      · rw [he] at e1; cases e1
      · rw [he] at e1; cases e1
        exact ih ha' (step_zero zero ha.inv hz op he) hl e2
    | trap =>
      rw [hq] at hs
      rcases hs with he | he <;> (rw [he] at e1; cases e1)
    | illegal => rw [hq] at hl; exact absurd rfl hl

theorem run_match {cfg : Cfg} (hv : Valid cfg) {zero : α} {s : State α} {t t'} (ha : Abs cfg s t) (hz : Zero (live s.vars))
    {ops : List (Op α)} (hr : Spec.run (tyOf cfg) zero t ops = .next t') : MatchZ cfg (run cfg zero s ops) (.next t') := by
  rw [← hr]
  exact .of (run_refines hv zero ha hz ops) fun hn _ e => run_zero hv zero ha hz hn e

/-- reading a view after the heap changed behind its back in ways invisible to it -/
theorem readView_ok {cfg : Cfg} {h h' : Heap α} {w : Hdr α} {os} (hi : Inv cfg h os) (hw : w ∈ os) (hf : Frame h h' os)
    {a n : Nat} (hn : a + n ≤ w.size) : readView h' w a n = .ok (((items h w).drop a).take n) := by
  obtain ⟨cs, hc, _, hle⟩ := loadCells_ok (hi.1.shape w hw)
  have hc' : cellsOf h' w = some cs := (hf w hw).trans hc
  unfold readView loadCells
  rw [hc']
  show Except.ok (slice cs a n) = _
  rw [slice_items hc hn]

theorem items_len {cfg : Cfg} {h : Heap α} {w : Hdr α} {os} (hi : Inv cfg h os) (hw : w ∈ os) : (items h w).length = w.size := by
  obtain ⟨cs, hc, _, _⟩ := loadCells_ok (hi.1.shape w hw)
  exact (items_spec (hi.1.shape w hw) hc).choose_spec.2.1

theorem items_all {cfg : Cfg} {h : Heap α} {w : Hdr α} {os} (hi : Inv cfg h os) (hw : w ∈ os) (ht : cfg.trivial = false) :
    allSome (items h w) = true := by
  obtain ⟨cs, hc, _, _⟩ := loadCells_ok (hi.1.shape w hw)
  exact (cont_items (hi.1.shape w hw) hc (hi.2 w hw) ht).1

/-- storage for `n` items, opened as two gaps -/
theorem initSplice_ok {cfg : Cfg} (hv : Valid cfg) {h : Heap α} {os} (hi : Inv cfg h os) (n m : Nat)
    (hlt : n + m + 1 < 2 ^ 31) :
    initSplice cfg h (n + m) = .error .exit ∨
    ∃ h' nv, initSplice cfg h (n + m) = .ok (h', nv) ∧ Opened cfg h os h' nv [] [] n m := by
  unfold initSplice
  rw [if_neg (by omega)]
  have := newStorage_ok hv hi.1 hlt
  simp only at this
  rcases this with he | ⟨h', nv, c, he, h1, h2, h3, h4, h5, h6⟩
  · exact Or.inl he
  · refine Or.inr ⟨h', nv, he, h1, h2, h3, by simp [h4], nones n, nones m, nones (c - (n + m)), ?_, by simp, by simp, ?_⟩
    · rw [h5]; simp only [List.nil_append, List.append_nil]; rw [← nones_add, ← nones_add]; congr 2; omega
    · intro _; exact ⟨allNone_nones _, allNone_nones _, allNone_nones _⟩

theorem initCopy2_ok {cfg : Cfg} (hv : Valid cfg) {h : Heap α} {os} (hi : Inv cfg h os) {w1 w2 : Hdr α} (hw1 : w1 ∈ os)
    (hw2 : w2 ∈ os) {a n b m : Nat} (h1 : a + n ≤ w1.size) (h2 : b + m ≤ w2.size) (hlt : n + m + 1 < 2 ^ 31) :
    Res cfg h os (initCopy2 cfg h w1 a n w2 b m) (((items h w1).drop a).take n ++ ((items h w2).drop b).take m) := by
  have l1 := items_len hi hw1
  have l2 := items_len hi hw2
  generalize hxs : ((items h w1).drop a).take n = xs
  generalize hys : ((items h w2).drop b).take m = ys
  have lx : xs.length = n := by rw [← hxs]; simp; omega
  have ly : ys.length = m := by rw [← hys]; simp; omega
  have sx : cfg.trivial = false → allSome xs = true := fun ht => hxs ▸ allSome_take (allSome_drop (items_all hi hw1 ht))
  have sy : cfg.trivial = false → allSome ys = true := fun ht => hys ▸ allSome_take (allSome_drop (items_all hi hw2 ht))
  unfold initCopy2
  rcases initSplice_ok hv hi n m hlt with he | ⟨h', nv, he, ho⟩
  · left; rw [he]; rfl
  · right
    have r1 := readView_ok hi hw1 ho.frame h1
    rw [hxs] at r1
    rw [← lx] at ho
    obtain ⟨h3, v3, e3, o3⟩ := fill_ins ho sx
    have r2 := readView_ok hi hw2 o3.frame h2
    rw [hys] at r2
    have o4 := opened_push_eq o3
    rw [← ly] at o4
    obtain ⟨h5, v5, e5, o5⟩ := fill_ins o4 sy
    have hd := o5.done (v := emptyHdr cfg) (empty_ok hi).1 (fun ht => ⟨by simpa using ⟨sx ht, sy ht⟩, rfl⟩)
    refine ⟨h5, v5, ?_, by simpa using hd⟩
    rw [he]
    simp only [bind, Except.bind, r1]
    simp only [List.length_nil, Int.ofNat_zero] at e3
    rw [show construct cfg h' nv false 0 xs = .ok (h3, v3) from e3]
    simp only [r2]
    simp only [List.nil_append, List.append_nil, lx] at e5
    exact e5

theorem initCopy1_ok {cfg : Cfg} (hv : Valid cfg) {h : Heap α} {os} (hi : Inv cfg h os) {w1 : Hdr α} (hw1 : w1 ∈ os)
    {a n : Nat} (h1 : a + n ≤ w1.size ∨ n = 0) (hlt : n + 1 < 2 ^ 31) :
    Res cfg h os (initCopy1 cfg h w1 a n) (((items h w1).drop a).take n) := by
  have l1 := items_len hi hw1
  generalize hxs : ((items h w1).drop a).take n = xs
  have lx : xs.length = n := by rw [← hxs]; simp; omega
  have sx : cfg.trivial = false → allSome xs = true := fun ht => hxs ▸ allSome_take (allSome_drop (items_all hi hw1 ht))
  unfold initCopy1
  rcases initSplice_ok hv hi n 0 hlt with he | ⟨h', nv, he, ho⟩
  · left; rw [show n = n + 0 from rfl, he]; rfl
  · right
    have r1 : readView h' w1 a n = .ok xs := by
      rcases h1 with h1 | h1
      · rw [readView_ok hi hw1 ho.frame h1, hxs]
      · subst h1
        obtain ⟨cs, hc, _, hle⟩ := loadCells_ok (hi.1.shape w1 hw1)
        have hc' : cellsOf h' w1 = some cs := (ho.frame w1 hw1).trans hc
        unfold readView loadCells
        rw [hc', ← hxs]
        show Except.ok (slice cs a 0) = _
        simp [slice]
    rw [← lx] at ho
    obtain ⟨h3, v3, e3, o3⟩ := fill_ins ho sx
    have hd := o3.done (v := emptyHdr cfg) (empty_ok hi).1 (fun ht => ⟨by simpa using sx ht, rfl⟩)
    refine ⟨h3, v3, ?_, by simpa using hd⟩
    rw [show initSplice cfg h n = _ from he]
    simp only [bind, Except.bind, r1]
    exact e3

/-- the header shares no block with what was there before -/
def New (h : Heap α) (r : M (Heap α × Hdr α)) : Prop := ∀ h' v', r = .ok (h', v') → ∀ b, owns b v' = true → h.next ≤ b

theorem initSplice_new {cfg : Cfg} {h : Heap α} {n} : New h (initSplice cfg h n) := by
  intro h' v' e
  unfold initSplice at e
  split at e
  · cases e
  · exact (newStorage_hdr e).1

theorem initCopy1_new {cfg : Cfg} {h : Heap α} {w : Hdr α} {a n} : New h (initCopy1 cfg h w a n) := by
  intro h' v' e b hb
  unfold initCopy1 at e
  obtain ⟨⟨h1, v1⟩, e1, e⟩ := bind_ok e
  obtain ⟨_, _, e⟩ := bind_ok e
  exact initSplice_new _ _ e1 b (by rw [← (construct_hdr e).1]; exact hb)

theorem initCopy2_new {cfg : Cfg} {h : Heap α} {w w' : Hdr α} {a n a' n'} : New h (initCopy2 cfg h w a n w' a' n') := by
  intro h' v' e b hb
  unfold initCopy2 at e
  obtain ⟨⟨h1, v1⟩, e1, e⟩ := bind_ok e
  obtain ⟨_, _, e⟩ := bind_ok e
  obtain ⟨⟨h2, v2⟩, e2, e⟩ := bind_ok e
  obtain ⟨_, _, e⟩ := bind_ok e
  exact initSplice_new _ _ e1 b (by rw [← (construct_hdr e2).1, ← (construct_hdr e).1]; exact hb)

/-- a new variable from a fresh header -/
theorem add_match {cfg : Cfg} {s : State α} {t} (ha : Abs cfg s t) (hz : Zero (live s.vars)) {r : M (Heap α × Hdr α)} {xs}
    (hr : Res cfg s.heap (live s.vars) r xs) (hn : New s.heap r) : MatchZ cfg (s.add r) (Spec.give t xs) := by
  refine give_match fun hl => ?_
  rcases hr with he | ⟨h', v', he, hd⟩
  · left; rw [he]; rfl
  · right
    refine ⟨_, by rw [he]; rfl, abs_add ha hd hl, zero_add hz fun o ho b hb => ?_⟩
    have := (Base.of_inv (v := emptyHdr cfg) (os := live s.vars) (empty_ok ha.inv).1).low o (by simp [ho]) b
    cases hc : owns b o with
    | false => rfl
    | true => have := this hc; have := hn h' v' he b hb; omega

theorem live_of_var {s : State α} {i : Nat} {v} (h : s.vars[i]? = some (some v)) : v ∈ live s.vars := by
  unfold live
  rw [List.mem_filterMap]
  exact ⟨some v, List.mem_of_getElem? h, rfl⟩

/-! ## Exchanging two items -/

theorem swapItems_ok {cfg : Cfg} (hv : Valid cfg) {h : Heap α} {v : Hdr α} {os} (x y : Nat)
    (hi : Inv cfg h (v :: os)) (hx : x < (items h v).length) (hy : y < (items h v).length)
    (hlt : (items h v).length + 1 < 2 ^ 31) :
    Res cfg h os (swapItems cfg h v x y) (((items h v).set x (items h v)[y]).set y (items h v)[x]) := by
  unfold swapItems
  rcases makeUnique_ok hv hi hlt with he | ⟨h1, v1, he, hd, hn⟩
  · left; rw [he]; rfl
  · right
    have hlen1 := items_length hd.inv
    rw [hd.items] at hlen1
    have hsh := hd.inv.1.shape v1 (by simp)
    obtain ⟨cs, hc, hload, hle⟩ := loadCells_ok hsh
    have hiv : items h v = cs.take v1.size := by rw [← hd.items]; unfold items; rw [hc]; rfl
    have gx : (items h v)[x] = cs[x] := by simp [hiv]
    have gy : (items h v)[y] = cs[y] := by simp [hiv]
    obtain ⟨h2, v2, s1, s2, s3, s4, s5, s6, s7, s8, s9, s10, s11⟩ := storeCells_ok hd.inv.1 (sole_of_notShared hn hsh) hc
      (cs' := (cs.set x cs[y]).set y cs[x]) (by simp)
    have hit : items h2 v2 = ((items h v).set x (items h v)[y]).set y (items h v)[x] := by
      rw [gx, gy, hiv]
      unfold items; rw [s4, s5]
      simp only [Option.getD_some]
      rw [List.take_set, List.take_set]
    have some_of : cfg.trivial = false → ∀ k, (hk : k < v1.size) → (cs[k]'(by omega)).isSome := by
      intro ht k hk
      have := (hd.inv.2 v1 (by simp) ht cs hc).1
      unfold allSome at this
      rw [List.all_eq_true] at this
      apply this
      rw [List.mem_take_iff_getElem]
      exact ⟨k, by omega, rfl⟩
    refine ⟨h2, v2, ?_, ⟨inv_of_frame s2 s3 (inv_tail hd.inv) ?_, hd.frame.trans s3, hit⟩⟩
    · rw [he]
      show (if 0 ≤ (x : Int) ∧ (x : Int) < v1.size ∧ 0 ≤ (y : Int) ∧ (y : Int) < v1.size then _ else _) = _
      rw [if_pos (by omega), hload]
      show (match cs[(x : Int).toNat]?, cs[(y : Int).toNat]? with | some p, some q => _ | _, _ => _) = _
      simp only [Int.toNat_natCast]
      rw [List.getElem?_eq_getElem (show x < cs.length by omega), List.getElem?_eq_getElem (show y < cs.length by omega)]
      simp only
      rw [if_pos, s1]
      by_cases ht : cfg.trivial = true
      · simp [ht]
      · have ht' : cfg.trivial = false := by simpa using ht
        simp [some_of ht' x (by omega), some_of ht' y (by omega)]
    · intro ht cs2 hcs2
      rw [s4] at hcs2; cases hcs2
      obtain ⟨a1, a2⟩ := hd.inv.2 v1 (by simp) ht cs hc
      rw [s5, List.take_set, List.take_set, List.drop_set_of_lt (by omega), List.drop_set_of_lt (by omega)]
      refine ⟨?_, a2⟩
      unfold allSome at a1 ⊢
      rw [List.all_eq_true] at a1 ⊢
      intro z hz
      rcases List.mem_or_eq_of_mem_set hz with hz | rfl
      · rcases List.mem_or_eq_of_mem_set hz with hz | rfl
        · exact a1 z hz
        · exact some_of ht y (by omega)
      · exact some_of ht x (by omega)

theorem swapItems_trap {cfg : Cfg} (hv : Valid cfg) {h : Heap α} {v : Hdr α} {os} (x y : Int)
    (hi : Inv cfg h (v :: os)) (hk : ¬ (0 ≤ x ∧ x < (items h v).length ∧ 0 ≤ y ∧ y < (items h v).length))
    (hlt : (items h v).length + 1 < 2 ^ 31) :
    swapItems cfg h v x y = .error .exit ∨ swapItems cfg h v x y = .error .trap := by
  unfold swapItems
  rcases makeUnique_ok hv hi hlt with he | ⟨h1, v1, he, hd, hn⟩
  · left; rw [he]; rfl
  · right
    have hlen1 := items_length hd.inv
    rw [hd.items] at hlen1
    rw [he]
    show (if 0 ≤ x ∧ x < v1.size ∧ 0 ≤ y ∧ y < v1.size then _ else _) = _
    rw [if_neg (by omega)]

theorem swapItems_fine {cfg : Cfg} {h h' : Heap α} {v v' : Hdr α} {os} {x y : Int} (hb : Base cfg h v os)
    (e : swapItems cfg h v x y = .ok (h', v')) : Fine os v v' := by
  unfold swapItems at e
  obtain ⟨⟨h1, v1⟩, e1, e⟩ := bind_ok e
  have hf : Fine os v v1 := by
    unfold makeUnique at e1
    split at e1
    · exact reserve_fine hb e1
    · cases e1; exact Fine.refl _ _
  simp only at e
  split at e
  · obtain ⟨_, _, e⟩ := bind_ok e
    split at e
    · split at e
      · exact hf.then (storeCells_hdr e).1 (storeCells_hdr e).2.1
      · cases e
    · cases e
  · cases e

/-! ## Every statement -/

theorem i32_ok {n : Int} (h : Spec.Fits n) : i32 n = .ok n := if_pos h

theorem view_some {xs ys : Spec.Val α} {a n} (h : Spec.view xs a n = some ys) : a + n ≤ xs.length ∧ ys = (xs.drop a).take n := by
  unfold Spec.view at h
  split at h
  · rename_i hl; cases h; exact ⟨hl, rfl⟩
  · cases h

theorem step_appendCopy {ty : Spec.Ty} {zero : α} {t : Spec.SState α} {i j a n adj xs ws}
    (hi : t.vars[i]? = some (some xs)) (hj : t.vars[j]? = some (some ws)) (hl : a + n ≤ ws.length)
    (hf : xs.length + n + 1 < 2 ^ 31) :
    Spec.step ty zero t (.appendCopy i 0 j a n adj) = .next { t with vars := t.vars.set i (some (xs ++ (ws.drop a).take n)) } := by
  simp only [Spec.step, hj, Spec.edit, hi]
  rw [if_pos, fit_ok]
  · simp
  · simp; omega
  · refine ⟨by omega, by omega, hl, fun ⟨h1, _, _, h4⟩ => h4.1 ?_⟩
    exact List.length_eq_zero_iff.1 (by omega)

theorem step_spliceCopy {ty : Spec.Ty} {zero : α} {t : Spec.SState α} {i j a n adj xs ws}
    (hi : t.vars[i]? = some (some xs)) (hj : t.vars[j]? = some (some ws)) (hl : a + n ≤ ws.length)
    (hf : xs.length + n + 1 < 2 ^ 31) :
    Spec.step ty zero t (.spliceCopy i 0 0 j a n adj) = .next { t with vars := t.vars.set i (some ((ws.drop a).take n ++ xs)) } := by
  simp only [Spec.step, hj, Spec.edit, hi]
  rw [if_pos, fit_ok]
  · have : Spec.clampTo (xs.length - (0 : Int).toNat) 0 = 0 := by unfold Spec.clampTo; omega
    rw [this]; simp [Spec.spliceAt]
  · simp [Spec.spliceAt]; omega
  · refine ⟨by omega, by omega, hl, fun ⟨_, h1, _, _, h4⟩ => h4.1 ?_⟩
    exact List.length_eq_zero_iff.1 (by omega)

/-- the trimming of `slice` -/
theorem trim_eq (xs : Spec.Val α) (start end_ : Int) :
    (xs.drop (Spec.clampTo xs.length start)).take
      (xs.length - Spec.clampTo xs.length start - Spec.clampTo (xs.length - Spec.clampTo xs.length start) (xs.length - end_))
      = Spec.cut xs start end_ := by
  unfold Spec.cut
  have e1 : Spec.clampTo xs.length start = min start.toNat xs.length := by unfold Spec.clampTo; omega
  generalize hk : Spec.clampTo xs.length start = k at *
  have e2 : xs.length - k - Spec.clampTo (xs.length - k) (xs.length - end_) = min end_.toNat xs.length - k := by
    unfold Spec.clampTo; omega
  rw [e2, List.drop_take]
  apply List.ext_getElem?
  intro q
  simp only [List.getElem?_take, List.getElem?_drop]
  by_cases hs : start.toNat ≤ xs.length
  · have : k = start.toNat := by omega
    subst this
    split <;> split <;> first | rfl | omega | skip
    rw [List.getElem?_eq_none (by omega)]
  · rw [if_neg (by omega)]
    split
    · rw [List.getElem?_eq_none (by omega)]
    · rfl

theorem step_shiftPop {ty : Spec.Ty} {zero : α} {t : Spec.SState α} {i xs} (start end_ : Int)
    (hi : t.vars[i]? = some (some xs)) :
    Spec.step ty zero t (.shiftPop i start (xs.length - end_)) = .next { t with vars := t.vars.set i (some (Spec.cut xs start end_)) } := by
  simp only [Spec.step, Spec.edit, hi]
  rw [trim_eq]

theorem cut_length (xs : Spec.Val α) (a b : Int) : (Spec.cut xs a b).length ≤ xs.length := by
  unfold Spec.cut; simp; omega

theorem cut_all (xs : Spec.Val α) (a : Int) : Spec.cut xs a xs.length = xs.drop a.toNat := by
  unfold Spec.cut; simp

theorem get_last (l : List (Option (Spec.Val α))) (x) : (l ++ [some x])[l.length]? = some (some x) := by simp

theorem slice_match {cfg : Cfg} (hv : Valid cfg) (zero : α) {s : State α} {t} (ha : Abs cfg s t) (hz : Zero (live s.vars))
    {i xs} (hi : t.vars[i]? = some (some xs)) (start end_ : Int) (hc : cfg.copiable = true) (f2 : Spec.Fits end_)
    (f3 : Spec.Fits (min end_ xs.length - max start 0)) :
    MatchZ cfg (sliceCopying cfg zero s i start end_) (.next { t with vars := t.vars ++ [some (Spec.cut xs start end_)] }) := by
  obtain ⟨v, h1, h2, h3, h4, h5, h6⟩ := abs_var ha hi
  have hsz : v.size = xs.length := by rw [← items_length h4, h3]
  have hlen : s.vars.length = t.vars.length := by rw [← ha.vars]; simp
  have hcopy : Spec.step (tyOf cfg) zero t (.copyNew i) = .next { t with vars := t.vars ++ [some xs] } := by
    simp only [Spec.step, hi]; rw [if_pos (show (tyOf cfg).copiable = true from hc)]
  unfold sliceCopying
  rw [h2]
  simp only [bind, Except.bind, hsz]
  by_cases q1 : cfg.trivial = true ∧ start = 0 ∧ (cfg.smallCapa : Int) < end_
  · rw [if_pos q1, i32_ok (by unfold Spec.Fits at *; omega)]
    simp only
    obtain ⟨_, rfl, _⟩ := q1
    refine run_match hv ha hz ?_
    rw [spec_cons hcopy, hlen, spec_cons (step_shiftPop 0 end_ (get_last _ _))]
    simp [Spec.run]
  · rw [if_neg q1]
    by_cases q2 : cfg.trivial = false ∧ start = 0 ∧ end_ = xs.length
    · rw [if_pos q2]
      obtain ⟨_, rfl, rfl⟩ := q2
      have := step_matchZ hv zero ha hz (.copyNew i)
      rw [hcopy] at this
      rw [cut_all]; simpa using this
    · rw [if_neg q2]
      have m1 : (if end_ < (xs.length : Int) then end_ else (xs.length : Int)) = min end_ xs.length := by split <;> omega
      have m2 : (if start > 0 then start else 0) = max start 0 := by split <;> omega
      rw [m1, m2, i32_ok f3]
      have m3 : ∀ c : Int, (if c > 0 then c else 0) = max c 0 := by intro c; split <;> omega
      simp only [m3]
      have hcl := cut_length xs start end_
      have hm := live_of_var h1
      have e : Spec.cut xs start end_ =
          (xs.drop (max start 0).toNat).take (max (min end_ (xs.length : Int) - max start 0) 0).toNat := by
        unfold Spec.cut
        rw [List.drop_take]
        have e1 : (max start 0).toNat = start.toNat := by omega
        rw [e1]
        apply List.ext_getElem?
        intro q
        simp only [List.getElem?_take, List.getElem?_drop]
        split <;> split <;> first | rfl | skip
        · rw [List.getElem?_eq_none (by omega)]
        · rw [List.getElem?_eq_none (by omega)]
      have hr := initCopy1_ok hv ha.inv hm (a := (max start 0).toNat)
        (n := (max (min end_ (xs.length : Int) - max start 0) 0).toNat) (by omega) (by omega)
      rw [h3, ← e] at hr
      have := add_match ha hz hr initCopy1_new
      unfold Spec.give at this
      rwa [if_pos (by omega)] at this

theorem exec_refines {cfg : Cfg} (hv : Valid cfg) (zero : α) {s : State α} {t} (ha : Abs cfg s t) (hz : Zero (live s.vars))
    (st : Stmt α) : MatchZ cfg (exec cfg zero s st) (Spec.exec (tyOf cfg) zero t st) := by
  have hlen : s.vars.length = t.vars.length := by rw [← ha.vars]; simp
  cases st with
  | op o => exact step_matchZ hv zero ha hz o
  | catMM i j =>
    simp only [Spec.exec, exec]
    split
    · rename_i xs ys hx hy
      replace hx := val_some hx; replace hy := val_some hy
      split
      · trivial
      · rename_i hne
        refine give_match fun hl => run_match hv ha hz ?_
        have hjl := (List.getElem?_eq_some_iff.1 hx).1
        have hx' : (t.vars.set j none)[i]? = some (some xs) := by rw [List.getElem?_set_ne (Ne.symm hne)]; exact hx
        have hs : Spec.step (tyOf cfg) zero t (.appendMove i 0 j)
            = .next { t with vars := (t.vars.set j none).set i (some (xs ++ ys)) } := by
          simp only [Spec.step, if_neg hne, hy, Spec.edit, hx']
          rw [if_pos (by omega), fit_ok (by simpa using hl)]
          simp
        rw [spec_cons hs, spec_tail (get_set_self hx')]
        simp only [List.set_set, Spec.use]
        rw [List.set_comm _ _ hne]
    · trivial
  | catMV i j a n adj =>
    simp only [Spec.exec, exec]
    split
    · rename_i xs ys hx hy
      replace hx := val_some hx
      obtain ⟨ws, hw, hy⟩ := Option.bind_eq_some_iff.1 hy
      replace hw := val_some hw
      obtain ⟨hvl, rfl⟩ := view_some hy
      refine give_match fun hl => run_match hv ha hz ?_
      exact spec_edit_tail hx (step_appendCopy hx hw hvl (by simp at hl; omega))
    · trivial
  | catVM j a n adj i =>
    simp only [Spec.exec, exec]
    split
    · rename_i xs ys hx hy
      replace hx := val_some hx
      obtain ⟨ws, hw, hy⟩ := Option.bind_eq_some_iff.1 hy
      replace hw := val_some hw
      obtain ⟨hvl, rfl⟩ := view_some hy
      refine give_match fun hl => run_match hv ha hz ?_
      exact spec_edit_tail hx (step_spliceCopy hx hw hvl (by simp at hl; omega))
    · trivial
  | catCC aVec bVec i a n j b m =>
    simp only [Spec.exec]
    split
    · rename_i us vs hx hy
      replace hx := val_some hx; replace hy := val_some hy
      split
      · rename_i hcond
        obtain ⟨c1, c2, c3⟩ := hcond
        split
        · rename_i xs ys hxs hys
          obtain ⟨l1, rfl⟩ := view_some hxs
          obtain ⟨l2, rfl⟩ := view_some hys
          obtain ⟨v, h1, h2, h3, h4, h5, h6⟩ := abs_var ha hx
          obtain ⟨w, k1, k2, k3, k4, k5, k6⟩ := abs_var ha hy
          simp only [exec, h2, k2, bind, Except.bind]
          have hcopy : ∀ i us, t.vars[i]? = some (some us) →
              Spec.step (tyOf cfg) zero t (.copyNew i) = .next { t with vars := t.vars ++ [some us] } := by
            intro i us hi; simp only [Spec.step, hi]; rw [if_pos c3]
          by_cases q1 : bVec = true ∧ n = 0
          · rw [if_pos q1]
            obtain ⟨hb, rfl⟩ := q1
            obtain ⟨rfl, rfl⟩ := c2 hb
            refine give_match fun hl => ?_
            have := step_matchZ hv zero ha hz (.copyNew j)
            rw [hcopy j vs hy] at this
            simpa using this
          · rw [if_neg q1]
            by_cases q2 : aVec = true ∧ m = 0
            · rw [if_pos q2]
              obtain ⟨hb, rfl⟩ := q2
              obtain ⟨rfl, rfl⟩ := c1 hb
              refine give_match fun hl => ?_
              have := step_matchZ hv zero ha hz (.copyNew i)
              rw [hcopy i us hx] at this
              simpa using this
            · rw [if_neg q2]
              by_cases hlt : n + m + 1 < 2 ^ 31
              · have hr := initCopy2_ok hv ha.inv (live_of_var h1) (live_of_var k1) (a := a) (n := n) (b := b) (m := m)
                  (by rw [← items_length h4, h3]; exact l1) (by rw [← items_length k4, k3]; exact l2) hlt
                rw [h3, k3] at hr
                exact add_match ha hz hr initCopy2_new
              · unfold Spec.give
                rw [if_neg (by simp; omega)]
                trivial
        · trivial
      · trivial
    · trivial
  | catMI i x =>
    simp only [Spec.exec, exec]
    split
    · rename_i xs hx
      replace hx := val_some hx
      refine give_match fun hl => run_match hv ha hz (spec_edit_tail hx ?_)
      simp only [Spec.step, Spec.edit, hx]
      rw [fit_ok hl]
    · trivial
  | catIM x i =>
    simp only [Spec.exec, exec]
    split
    · rename_i xs hx
      replace hx := val_some hx
      refine give_match fun hl => run_match hv ha hz (spec_edit_tail hx ?_)
      simp only [Spec.step, Spec.edit, hx]
      rw [fit_ok hl]
    · trivial
  | catCI i a n adj x =>
    simp only [Spec.exec, exec]
    split
    · rename_i xs hx
      obtain ⟨ws, hw, hy⟩ := Option.bind_eq_some_iff.1 hx
      replace hw := val_some hw
      obtain ⟨hvl, rfl⟩ := view_some hy
      refine give_match fun hl => run_match hv ha hz ?_
      have hlt := (List.getElem?_eq_some_iff.1 hw).1
      have hn : n + 2 < 2 ^ 31 := by simp at hl; omega
      rw [hlen]
      have s1 : Spec.step (tyOf cfg) zero t .new = .next { t with vars := t.vars ++ [some []] } := rfl
      rw [spec_cons s1]
      have s2 : Spec.step (tyOf cfg) zero { t with vars := t.vars ++ [some []] } (.reserve t.vars.length (n + 1))
          = .next { t with vars := t.vars ++ [some []] } := by
        simp only [Spec.step, Spec.edit, get_last]
        rw [if_pos (by omega)]
        simp
      rw [spec_cons s2, spec_cons (step_appendCopy (get_last _ _) (by rw [List.getElem?_append_left hlt]; exact hw) hvl (by simp; omega))]
      simp only [List.nil_append, Spec.run, Spec.step, Spec.edit]
      have hset : (t.vars ++ [some []]).set t.vars.length (some ((ws.drop a).take n)) = t.vars ++ [some ((ws.drop a).take n)] := by
        simp
      rw [hset, get_last]
      simp only
      rw [fit_ok hl]
      simp
    · trivial
  | catIC x i a n adj =>
    simp only [Spec.exec, exec]
    split
    · rename_i xs hx
      obtain ⟨ws, hw, hy⟩ := Option.bind_eq_some_iff.1 hx
      replace hw := val_some hw
      obtain ⟨hvl, rfl⟩ := view_some hy
      refine give_match fun hl => run_match hv ha hz ?_
      have hlt := (List.getElem?_eq_some_iff.1 hw).1
      have hn : n + 2 < 2 ^ 31 := by simp at hl; omega
      rw [hlen]
      have s1 : Spec.step (tyOf cfg) zero t .new = .next { t with vars := t.vars ++ [some []] } := rfl
      rw [spec_cons s1]
      have s2 : Spec.step (tyOf cfg) zero { t with vars := t.vars ++ [some []] } (.reserve t.vars.length (n + 1))
          = .next { t with vars := t.vars ++ [some []] } := by
        simp only [Spec.step, Spec.edit, get_last]
        rw [if_pos (by omega)]
        simp
      have s3 : Spec.step (tyOf cfg) zero { t with vars := t.vars ++ [some []] } (.push t.vars.length x)
          = .next { t with vars := t.vars ++ [some [some x]] } := by
        simp only [Spec.step, Spec.edit, get_last]
        rw [fit_ok (by simp)]
        simp
      rw [spec_cons s2, spec_cons s3,
        spec_cons (step_appendCopy (get_last _ _) (by rw [List.getElem?_append_left hlt]; exact hw) hvl (by simp; omega))]
      simp [Spec.run]
    · trivial
  | sliceM1 i start =>
    simp only [Spec.exec, exec]
    split
    · rename_i xs hx
      replace hx := val_some hx
      refine give_match fun hl => run_match hv ha hz (spec_edit_tail hx ?_)
      have := step_shiftPop (ty := tyOf cfg) (zero := zero) start xs.length hx
      rw [cut_all] at this
      simpa using this
    · trivial
  | sliceM i start end_ =>
    simp only [Spec.exec, exec]
    split
    · rename_i xs hx
      replace hx := val_some hx
      obtain ⟨v, h1, h2, h3, h4, h5, h6⟩ := abs_var ha hx
      have hsz : v.size = xs.length := by rw [← items_length h4, h3]
      split
      · rename_i hf
        simp only [h2, bind, Except.bind, hsz, i32_ok hf]
        exact give_match fun hl => run_match hv ha hz (spec_edit_tail hx (step_shiftPop _ _ hx))
      · trivial
    · trivial
  | sliceC i start end_ =>
    simp only [Spec.exec, exec]
    split
    · rename_i xs hx
      split
      · rename_i hc
        exact give_match fun hl => slice_match hv zero ha hz (val_some hx) _ _ hc.1 hc.2.2.1 hc.2.2.2
      · trivial
    · trivial
  | sliceC1 i start =>
    simp only [Spec.exec, exec]
    split
    · rename_i xs hx
      replace hx := val_some hx
      obtain ⟨v, h1, h2, h3, h4, h5, h6⟩ := abs_var ha hx
      have hsz : v.size = xs.length := by rw [← items_length h4, h3]
      split
      · rename_i hc
        simp only [h2, bind, Except.bind, hsz]
        have := slice_match hv zero ha hz hx start xs.length hc.1 (by unfold Spec.Fits; omega)
          (by have := hc.2; unfold Spec.Fits at *; omega)
        rw [cut_all] at this
        exact give_match fun hl => this
      · trivial
    · trivial
  | substrM i start count =>
    simp only [Spec.exec, exec]
    split
    · rename_i xs hx
      replace hx := val_some hx
      obtain ⟨v, h1, h2, h3, h4, h5, h6⟩ := abs_var ha hx
      have hsz : v.size = xs.length := by rw [← items_length h4, h3]
      split
      · rename_i hf
        simp only [h2, bind, Except.bind, hsz, i32_ok hf.1, i32_ok hf.2]
        exact give_match fun hl => run_match hv ha hz (spec_edit_tail hx (step_shiftPop _ _ hx))
      · trivial
    · trivial
  | substrC i start count =>
    simp only [Spec.exec, exec]
    split
    · rename_i xs hx
      split
      · rename_i hc
        simp only [bind, Except.bind, i32_ok hc.2.2.1]
        exact give_match fun hl => slice_match hv zero ha hz (val_some hx) _ _ hc.1 hc.2.2.1 hc.2.2.2
      · trivial
    · trivial
  | swap i x y =>
    simp only [Spec.exec, exec]
    refine .of (edit_ok ha i _ _ ?_ ?_) (fun _ s' e => upd_zero ha.inv hz (fun v h' v' _ hb e => swapItems_fine hb e) e)
    · intro v os ys hi _ _ hl hg
      split at hg
      · rename_i h0
        obtain ⟨p, rfl⟩ := Int.eq_ofNat_of_zero_le h0.1
        obtain ⟨q, rfl⟩ := Int.eq_ofNat_of_zero_le h0.2
        simp only [Int.toNat_natCast] at hg
        split at hg
        · rename_i u w hu hw
          obtain ⟨lu, rfl⟩ := List.getElem?_eq_some_iff.1 hu
          obtain ⟨lw, rfl⟩ := List.getElem?_eq_some_iff.1 hw
          cases hg
          exact ⟨by simpa using hl, swapItems_ok hv p q hi lu lw hl⟩
        · cases hg
      · cases hg
    · intro v os hi hl hg
      refine swapItems_trap hv x y hi (fun ⟨a1, a2, a3, a4⟩ => ?_) hl
      rw [if_pos ⟨a1, a3⟩, List.getElem?_eq_getElem (by omega), List.getElem?_eq_getElem (by omega)] at hg
      cases hg

theorem execAll_refines {cfg : Cfg} (hv : Valid cfg) (zero : α) {s : State α} {t} (ha : Abs cfg s t) (hz : Zero (live s.vars))
    (sts : List (Stmt α)) : MatchZ cfg (execAll cfg zero s sts) (Spec.execAll (tyOf cfg) zero t sts) := by
  induction sts generalizing s t with
  | nil => exact Or.inr ⟨s, rfl, ha, hz⟩
  | cons st sts ih =>
    have hs := exec_refines hv zero ha hz st
    simp only [execAll, Spec.execAll, bind, Except.bind]
    cases hq : Spec.exec (tyOf cfg) zero t st with
    | next t' =>
      rw [hq] at hs
      rcases hs with he | ⟨s', he, ha', hz'⟩
      · rw [he]
        simp only
        cases Spec.execAll (tyOf cfg) zero t' sts with
        | next _ => exact Or.inl rfl
        | trap => exact Or.inl rfl
        | illegal => trivial
      · rw [he]; exact ih ha' hz'
    | trap =>
      rw [hq] at hs
      rcases hs with he | he
      · rw [he]; exact Or.inl rfl
      · rw [he]; exact Or.inr rfl
    | illegal => trivial

/-! ## What programs see -/

/-- **C83** Value semantics of the operators: whatever program over whatever item type, mixing the operations of a vector
with every overload of `+`, with `slice`, `substr` and `view_swap`: if it makes sense on independent lists then it either
dies in the allocator, or reads the same items along the way and leaves every variable with exactly the items the list
program computes, in which `+` is concatenation, `slice` cuts and operands that are not consumed keep their value. -/
theorem operators_are_values (cfg : Cfg) (hv : Valid cfg) (zero : α) (sts : List (Stmt α)) (t : Spec.SState α)
    (hspec : Spec.execAll ⟨cfg.copiable, cfg.trivial⟩ zero Spec.start sts = .next t) :
    execAll cfg zero start sts = .error .exit ∨
    ∃ s, execAll cfg zero start sts = .ok s ∧ s.out = t.out ∧
      s.vars.map (Option.map (see s)) = t.vars.map (Option.map (List.map .ok)) := by
  have := execAll_refines hv zero (abs_start cfg) zero_start sts
  rw [show tyOf cfg = ⟨cfg.copiable, cfg.trivial⟩ from rfl, hspec] at this
  rcases this with he | ⟨s, he, ha, _⟩
  · exact Or.inl he
  · exact Or.inr ⟨s, he, ha.out, abs_see ha⟩

/-- **C83** An out-of-range `view_swap` or item access is caught by the bounds check, and nothing else is. -/
theorem operators_check_bounds (cfg : Cfg) (hv : Valid cfg) (zero : α) (sts : List (Stmt α))
    (hspec : Spec.execAll ⟨cfg.copiable, cfg.trivial⟩ zero Spec.start sts = .trap) :
    execAll cfg zero start sts = .error .exit ∨ execAll cfg zero start sts = .error .trap := by
  have := execAll_refines hv zero (abs_start cfg) zero_start sts
  rw [show tyOf cfg = ⟨cfg.copiable, cfg.trivial⟩ from rfl, hspec] at this
  exact this

/-- **C83** Memory safety of the operators, in the sense of C02. -/
theorem operators_are_memory_safe (cfg : Cfg) (hv : Valid cfg) (zero : α) (sts : List (Stmt α))
    (hspec : Spec.execAll ⟨cfg.copiable, cfg.trivial⟩ zero Spec.start sts ≠ .illegal) :
    execAll cfg zero start sts ≠ .error .ub := by
  have := execAll_refines hv zero (abs_start cfg) zero_start sts
  rw [show tyOf cfg = ⟨cfg.copiable, cfg.trivial⟩ from rfl] at this
  cases h : Spec.execAll ⟨cfg.copiable, cfg.trivial⟩ zero Spec.start sts with
  | next t =>
    rw [h] at this
    rcases this with he | ⟨s, he, _⟩ <;> rw [he] <;> simp
  | trap =>
    rw [h] at this
    rcases this with he | he <;> rw [he] <;> simp
  | illegal => exact absurd h hspec

/-- **C83** No leaks: once every variable is destroyed no heap block is left. -/
theorem operators_do_not_leak (cfg : Cfg) (hv : Valid cfg) (zero : α) (sts : List (Stmt α)) (t : Spec.SState α)
    (hspec : Spec.execAll ⟨cfg.copiable, cfg.trivial⟩ zero Spec.start sts = .next t) (hdead : ∀ x ∈ t.vars, x = none)
    (s : State α) (hrun : execAll cfg zero start sts = .ok s) : ∀ b, s.heap.blk b = none := by
  have := execAll_refines hv zero (abs_start cfg) zero_start sts
  rw [show tyOf cfg = ⟨cfg.copiable, cfg.trivial⟩ from rfl, hspec, hrun] at this
  rcases this with he | ⟨s', he, ha, _⟩
  · cases he
  · cases he
    have hl : live s.vars = [] := by
      unfold live
      rw [List.filterMap_eq_nil_iff]
      intro o ho
      have : o.map (items s.heap) ∈ t.vars := by rw [← ha.vars]; exact List.mem_map_of_mem ho
      have := hdead _ this
      cases o with
      | none => rfl
      | some v => simp at this
    intro b
    cases hb : s.heap.blk b with
    | none => rfl
    | some blk =>
      have := ha.inv.1.count b blk hb
      rw [hl] at this
      simp at this

/-- What a program must establish: variable `i` holds `xs`. -/
def ExecHolds (cfg : Cfg) (zero : α) (sts : List (Stmt α)) (i : Nat) (xs : Spec.Val α) : Prop :=
  ∃ t, Spec.execAll ⟨cfg.copiable, cfg.trivial⟩ zero Spec.start sts = .next t ∧ t.vars[i]? = some (some xs)

/-- The program dies in the allocator, or the last variable shows `ys` and every variable the prefix left, except those
in `gone`, shows what it showed before. -/
def Yields (cfg : Cfg) (zero : α) (sts : List (Stmt α)) (st : Stmt α) (gone : List Nat) (ys : Spec.Val α) : Prop :=
  execAll cfg zero start (sts ++ [st]) = .error .exit ∨
  ∃ s v, execAll cfg zero start (sts ++ [st]) = .ok s ∧ s.vars.getLast? = some (some v) ∧ see s v = ys.map .ok ∧
    ∀ k zs, k ∉ gone → ExecHolds cfg zero sts k zs → ∃ w, s.vars[k]? = some (some w) ∧ see s w = zs.map .ok

theorem specAll_append (ty : Spec.Ty) (zero : α) (t : Spec.SState α) (sts : List (Stmt α)) (st : Stmt α) :
    Spec.execAll ty zero t (sts ++ [st]) = match Spec.execAll ty zero t sts with
      | .next t' => Spec.exec ty zero t' st
      | .trap => .trap
      | .illegal => .illegal := by
  induction sts generalizing t with
  | nil =>
    simp only [List.nil_append, Spec.execAll]
    cases Spec.exec ty zero t st <;> rfl
  | cons o sts ih =>
    simp only [List.cons_append, Spec.execAll]
    cases Spec.exec ty zero t o with
    | next t' => exact ih t'
    | trap => rfl
    | illegal => rfl

theorem yields_of {cfg : Cfg} (hv : Valid cfg) {zero : α} {sts : List (Stmt α)} {st : Stmt α} {gone : List Nat}
    {ys : Spec.Val α} {t t' : Spec.SState α}
    (ht : Spec.execAll ⟨cfg.copiable, cfg.trivial⟩ zero Spec.start sts = .next t)
    (hs : Spec.exec ⟨cfg.copiable, cfg.trivial⟩ zero t st = .next { t' with vars := t'.vars ++ [some ys] })
    (hk : ∀ k, k ∉ gone → t'.vars[k]? = t.vars[k]?) : Yields cfg zero sts st gone ys := by
  have hrun : Spec.execAll ⟨cfg.copiable, cfg.trivial⟩ zero Spec.start (sts ++ [st])
      = .next { t' with vars := t'.vars ++ [some ys] } := by
    rw [specAll_append, ht]; exact hs
  rcases operators_are_values cfg hv zero _ _ hrun with he | ⟨s, he, _, hsee⟩
  · exact Or.inl he
  · right
    have at_ : ∀ (k : Nat) (zs : Spec.Val α), (t'.vars ++ [some ys])[k]? = some (some zs) → ∃ w, s.vars[k]? = some (some w) ∧ see s w = zs.map .ok := by
      intro k zs hz
      have hget := congrArg (fun l => l[k]?) hsee
      simp only [List.getElem?_map, hz] at hget
      cases hvi : s.vars[k]? with
      | none => rw [hvi] at hget; simp at hget
      | some o =>
        rw [hvi] at hget
        cases o with
        | none => simp at hget
        | some v =>
          simp only [Option.map_some, Option.some.injEq] at hget
          exact ⟨v, rfl, hget⟩
    obtain ⟨w, hw1, hw2⟩ := at_ t'.vars.length ys (by simp)
    have hlen := congrArg List.length hsee
    simp only [List.length_map, List.length_append, List.length_singleton] at hlen
    refine ⟨s, w, he, ?_, hw2, fun k zs hg hh => ?_⟩
    · rw [List.getLast?_eq_getElem?, hlen]; exact hw1
    · obtain ⟨u, hu1, hu2⟩ := hh
      rw [ht] at hu1; cases hu1
      refine at_ k zs ?_
      rw [← hk k hg] at hu2
      rw [List.getElem?_append_left (List.getElem?_eq_some_iff.1 hu2).1]
      exact hu2

theorem val_of {t : Spec.SState α} {i xs} (h : t.vars[i]? = some (some xs)) : Spec.val t i = some xs := by
  unfold Spec.val; rw [h]

theorem give_ok {t : Spec.SState α} {xs : Spec.Val α} (h : xs.length + 1 < 2 ^ 31) :
    Spec.give t xs = .next { t with vars := t.vars ++ [some xs] } := if_pos h

/-- **C83** `a + b` with both operands kept, for whole vectors: after any program, whatever sharing there is between the two
(also `a + a`), the result is the concatenation, and every variable including the operands keeps its value. -/
theorem concat_keeps_operands (cfg : Cfg) (hv : Valid cfg) (hc : cfg.copiable = true) (zero : α) (sts : List (Stmt α))
    (t : Spec.SState α) (ht : Spec.execAll ⟨cfg.copiable, cfg.trivial⟩ zero Spec.start sts = .next t)
    (i j : Nat) (xs ys : Spec.Val α) (hi : t.vars[i]? = some (some xs)) (hj : t.vars[j]? = some (some ys))
    (hfit : xs.length + ys.length + 1 < 2 ^ 31) :
    Yields cfg zero sts (.catCC true true i 0 xs.length j 0 ys.length) [] (xs ++ ys) := by
  refine yields_of hv ht (t' := t) ?_ (fun _ _ => rfl)
  simp only [Spec.exec, val_of hi, val_of hj]
  rw [if_pos (by simp [hc])]
  simp only [Spec.view, Nat.zero_add, Nat.le_refl, if_true, List.drop_zero, List.take_length]
  exact give_ok (by simp only [List.length_append]; exact hfit)

/-- **C83** `move(a) + b`, `b + move(a)`: `b` any view into any variable, `a` itself and variables sharing storage with it
included: the concatenation, and everything but `a` keeps its value. -/
theorem concat_consumes_one (cfg : Cfg) (hv : Valid cfg) (zero : α) (sts : List (Stmt α))
    (t : Spec.SState α) (ht : Spec.execAll ⟨cfg.copiable, cfg.trivial⟩ zero Spec.start sts = .next t)
    (i j a n : Nat) (adj : Bool) (xs ws : Spec.Val α) (hi : t.vars[i]? = some (some xs)) (hj : t.vars[j]? = some (some ws))
    (hview : a + n ≤ ws.length) (hfit : xs.length + n + 1 < 2 ^ 31) :
    Yields cfg zero sts (.catMV i j a n adj) [i] (xs ++ (ws.drop a).take n) ∧
    Yields cfg zero sts (.catVM j a n adj i) [i] ((ws.drop a).take n ++ xs) := by
  have hk : ∀ k, k ∉ [i] → (Spec.use t i).vars[k]? = t.vars[k]? := by
    intro k hk
    simp only [List.mem_singleton] at hk
    exact List.getElem?_set_ne (Ne.symm hk)
  have hw : (Spec.val t j).bind (Spec.view · a n) = some ((ws.drop a).take n) := by
    rw [val_of hj]; simp only [Option.bind_some, Spec.view, if_pos hview]
  have hl : ((ws.drop a).take n).length = n := by simp; omega
  refine ⟨yields_of hv ht (t' := Spec.use t i) ?_ hk, yields_of hv ht (t' := Spec.use t i) ?_ hk⟩
  · simp only [Spec.exec, val_of hi, hw]
    exact give_ok (by rw [List.length_append, hl]; omega)
  · simp only [Spec.exec, val_of hi, hw]
    exact give_ok (by rw [List.length_append, hl]; omega)

/-- **C83** `slice` of a kept vector within range: exactly the items between the positions, the vector unchanged. -/
theorem slice_in_range (cfg : Cfg) (hv : Valid cfg) (hc : cfg.copiable = true) (zero : α) (sts : List (Stmt α))
    (t : Spec.SState α) (ht : Spec.execAll ⟨cfg.copiable, cfg.trivial⟩ zero Spec.start sts = .next t)
    (i : Nat) (xs : Spec.Val α) (hi : t.vars[i]? = some (some xs)) (hsmall : xs.length + 1 < 2 ^ 31) (a b : Nat)
    (_hab : a ≤ b) (hb : b ≤ xs.length) :
    Yields cfg zero sts (.sliceC i a b) [] ((xs.drop a).take (b - a)) ∧
    Yields cfg zero sts (.sliceM i a b) [i] ((xs.drop a).take (b - a)) := by
  have e : Spec.cut xs a b = (xs.drop a).take (b - a) := by
    unfold Spec.cut; simp only [Int.toNat_natCast]; rw [List.drop_take]
  refine ⟨yields_of hv ht (t' := t) ?_ (fun _ _ => rfl), yields_of hv ht (t' := Spec.use t i) ?_ ?_⟩
  · simp only [Spec.exec, val_of hi]
    rw [if_pos ⟨hc, by unfold Spec.Fits; omega, by unfold Spec.Fits; omega, by unfold Spec.Fits; omega⟩, ← e]
    exact give_ok (by have := cut_length xs a b; omega)
  · simp only [Spec.exec, val_of hi]
    rw [if_pos (by unfold Spec.Fits; omega), ← e]
    exact give_ok (by have := cut_length xs a b; omega)
  · intro k hk
    simp only [List.mem_singleton] at hk
    exact List.getElem?_set_ne (Ne.symm hk)

/-! ### Non-trivial instances -/

/-- sharing, both kinds of operands, slices that share storage and slices that do not -/
def exprDemo : List (Stmt Nat) :=
  [.op (.lit [1, 2, 3, 4, 5]), .catCC true true 0 0 5 0 0 5, .sliceC 1 0 6, .op (.set 2 0 9), .op (.get 1 0), .catMI 2 7,
   .swap 3 0 6, .op (.get 3 0), .catMV 3 0 1 2 false, .catVM 4 0 2 false 4, .sliceC 5 (-4) 3, .op (.get 5 2), .op (.drop 0),
   .op (.drop 1), .catMM 5 6, .op (.drop 7)]

example : (execAll i32Cfg 0 start exprDemo).map (·.out) = .ok [some 1, some 7, some 7] := rfl
example : (execAll strCfg 0 start exprDemo).map (·.out) = .ok [some 1, some 7, some 7] := rfl
example : Spec.execAll ⟨true, false⟩ 0 Spec.start
    [.op (.lit [1, 2, 3]), .catCC true true 0 0 3 0 0 3, .sliceC 1 2 5, .swap 2 0 1] =
    .next { vars := [some [some 1, some 2, some 3], some [some 1, some 2, some 3, some 1, some 2, some 3],
      some [some 1, some 3, some 2]], out := [] } := rfl

/-- out of range, release mode: positions are forced into range -/
example : (execAll i32Cfg 0 start [.op (.lit [1, 2, 3]), .sliceC 0 (-7) 2, .sliceC 0 2 99, .sliceC 0 3 1]).map
    (fun s => s.vars.map (Option.map Hdr.size)) = .ok [some 3, some 2, some 1, some 0] := rfl

end Verif.Vec
