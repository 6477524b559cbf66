import Verif.VecZero
/-!
# Theorems about programs over vectors

C01 (value semantics), C02 (memory safety), C03 (no leaks), C04 (list splicing), C08 (aliasing sources).
-/
namespace Verif.Vec
open Verif.Pack (Cfg)
variable {α : Type}

theorem abs_start (cfg : Cfg) : Abs cfg (start : State α) Spec.start :=
  ⟨⟨⟨fun _ h => by simp [start, live] at h, fun b blk h => by simp [start] at h, fun _ _ => rfl⟩,
    fun _ h => by simp [start, live] at h⟩, rfl, rfl, fun _ h => by simp [Spec.start] at h⟩

theorem zero_start : Zero (live (start : State α).vars) := fun _ h => by simp [start, live] at h

theorem step_refines {cfg : Cfg} (hv : Valid cfg) (zero : α) {s : State α} {t} (ha : Abs cfg s t) (hz : Zero (live s.vars))
    (op : Op α) :
    Match cfg (step cfg zero s op) (Spec.step (tyOf cfg) zero t op) := by
  cases op with
  | new =>
    right
    exact ⟨_, rfl, abs_add ha ⟨(empty_ok ha.inv).1, Frame.refl _ _, (empty_ok ha.inv).2⟩ (by simp)⟩
  | lit xs =>
    simp only [Spec.step]
    split
    · rename_i hlt
      have hx : cfg.trivial = false → allSome (xs.map some) = true := fun _ => by simp [allSome]
      rcases initList_ok hv (xs.map some) ha.inv hx (by simpa using hlt) with he | ⟨h', v', he, hd⟩
      · left; simp only [step, he]; rfl
      · right; exact ⟨_, by simp only [step, he]; rfl, abs_add ha hd (by simpa using hlt)⟩
    · trivial
  | copyNew j =>
    simp only [Spec.step]
    split
    · rename_i xs hx
      split
      · rename_i hcp
        obtain ⟨v, h1, h2, h3, h4, h5, h6⟩ := abs_var ha hx
        obtain ⟨h', v1, v2, e, i1, f1, x1, x2⟩ := copy_ok h4 hcp
        right
        refine ⟨_, by simp only [step, h2, bind, Except.bind, e]; rfl, ?_⟩
        have := abs_setadd ha h5 i1 f1 (x1.trans h3) (x2.trans h3) h6 h6
        rwa [set_same hx] at this
      · trivial
    · trivial
  | moveNew j =>
    simp only [Spec.step]
    split
    · rename_i xs hx
      obtain ⟨v, h1, h2, h3, h4, h5, h6⟩ := abs_var ha hx
      right
      refine ⟨_, by simp only [step, h2, bind, Except.bind, moveOut]; rfl, ?_⟩
      exact abs_setadd ha h5 (inv_swap (empty_ok h4).1) (Frame.refl _ _) rfl h3 (by simp) h6
    · trivial
  | copyAssign i j =>
    simp only [Spec.step]
    split
    · trivial
    · rename_i hne
      split
      · rename_i ys hy
        split
        · rename_i hcp
          unfold Spec.edit
          split
          · rename_i xs hx
            obtain ⟨v, w, e1, e2, x1, x2, hinv, hi, hj, hp, l1, l2⟩ := abs_var2 ha hne hx hy
            obtain ⟨h', w1, w2, e, i1, f1, y1, y2⟩ := copy_ok (inv_swap hinv) hcp
            -- w2 :: w1 :: v :: os
            have i1' : Inv cfg h' (v :: w2 :: w1 :: live ((s.vars.set j none).set i none)) :=
              i1.perm (by
                refine (List.Perm.cons w2 (List.Perm.swap v w1 _)).trans ?_
                exact List.Perm.swap _ _ _)
            obtain ⟨h2, d1, d2, d3⟩ := destroy_ok i1'
            right
            refine ⟨_, by simp only [step, if_neg hne, e1, e2, bind, Except.bind, e, d1]; rfl, ?_⟩
            have := abs_set2 ha hne hi hj (w' := some w1) (v' := w2) (ys := some ys) d2
              (f1.tail.trans (fun o ho => d3 o (by simp [ho])))
              ((Frame.items d3 (by simp)).trans (y2.trans x2)) (by
                simp only [Option.map_some, Option.some.injEq]
                exact (Frame.items d3 (by simp)).trans (y1.trans x2)) l2 (by intro y hy; cases hy; exact l2)
            rwa [set_same hy] at this
          · trivial
        · trivial
      · trivial
  | moveAssign i j =>
    simp only [Spec.step]
    split
    · trivial
    · rename_i hne
      split
      · rename_i ys hy
        unfold Spec.edit
        split
        · rename_i xs hx
          simp only at hx
          rw [List.getElem?_set_ne (Ne.symm hne)] at hx
          obtain ⟨v, w, e1, e2, x1, x2, hinv, hi, hj, hp, l1, l2⟩ := abs_var2 ha hne hx hy
          obtain ⟨h2, d1, d2, d3⟩ := destroy_ok hinv
          right
          refine ⟨_, by simp only [step, if_neg hne, e1, e2, bind, Except.bind, d1, moveOut]; rfl, ?_⟩
          exact abs_set2 ha hne hi hj (w' := some (emptyHdr cfg)) (v' := w) (ys := some []) (inv_swap (empty_ok d2).1)
            (fun o ho => d3 o (by simp [ho])) ((Frame.items d3 (by simp)).trans x2) rfl l2 (by intro y hy; cases hy; exact Nat.lt_of_lt_of_le (by decide : 1 < 2) (by decide))
        · trivial
      · trivial
  | drop i =>
    simp only [Spec.step]
    split
    · rename_i xs hx
      obtain ⟨v, h1, h2, h3, h4, h5, h6⟩ := abs_var ha hx
      obtain ⟨h', d1, d2, d3⟩ := destroy_ok h4
      right
      exact ⟨_, by simp only [step, h2, bind, Except.bind, d1], abs_drop ha d2 d3⟩
    · trivial
  | push i x =>
    simp only [step, Spec.step]
    refine edit_ok ha i _ _ ?_ ?_
    · intro v os ys hi _ _ hl hg
      obtain ⟨rfl, hf⟩ := fit_next hg
      exact ⟨hf, push_ok hv x hi (by simpa using hf)⟩
    · intro v os hi hl hg
      exact absurd hg fit_trap
  | insert i k x =>
    simp only [step, Spec.step]
    refine edit_ok ha i _ _ ?_ ?_
    · intro v os ys hi _ _ hl hg
      split at hg
      · rename_i hk
        obtain ⟨rfl, hf⟩ := fit_next hg
        have := insert_ok hv k x hi (by rw [items_length hi] at hk; exact hk) (by
          have := items_length hi
          unfold Spec.spliceAt at hf; simp only [List.length_append, List.length_take, List.length_drop, List.length_singleton] at hf; omega)
        exact ⟨hf, by simpa [Spec.spliceAt] using this⟩
      · cases hg
    · intro v os hi hl hg
      split at hg
      · exact absurd hg fit_trap
      · cases hg
  | unshift i x =>
    simp only [step, Spec.step]
    refine edit_ok ha i _ _ ?_ ?_
    · intro v os ys hi _ _ hl hg
      obtain ⟨rfl, hf⟩ := fit_next hg
      exact ⟨hf, unshift_ok hv x hi (by simpa using hf)⟩
    · intro v os hi hl hg
      exact absurd hg fit_trap
  | resize i zf n =>
    simp only [step, Spec.step]
    refine edit_ok ha i _ _ ?_ ?_
    · intro v os ys hi _ _ hl hg
      obtain ⟨rfl, hf⟩ := fit_next hg
      refine ⟨hf, ?_⟩
      rw [← blank_eq]
      exact resize_ok hv n hi (by simp only [List.length_append, List.length_take, List.length_replicate] at hf; omega)
    · intro v os hi hl hg
      exact absurd hg fit_trap
  | grow i zf n =>
    simp only [step, Spec.step]
    refine edit_ok ha i _ _ ?_ ?_
    · intro v os ys hi _ _ hl hg
      obtain ⟨rfl, hf⟩ := fit_next hg
      refine ⟨hf, ?_⟩
      rw [← blank_eq]
      exact grow_ok hv n hi (by simp only [List.length_append, List.length_replicate] at hf; omega)
    · intro v os hi hl hg
      exact absurd hg fit_trap
  | shrink i n =>
    simp only [step, Spec.step]
    refine edit_ok ha i _ _ ?_ ?_
    · intro v os ys hi _ _ hl hg
      cases hg
      exact ⟨by simp only [List.length_take]; omega, shrink_ok hv n hi hl⟩
    · intro v os hi hl hg
      cases hg
  | clear i =>
    simp only [step, Spec.step]
    refine edit_ok ha i _ _ ?_ ?_
    · intro v os ys hi _ _ hl hg
      cases hg
      obtain ⟨h', v', e, d⟩ := clear_ok hi
      exact ⟨by simp, Or.inr ⟨h', v', e, d⟩⟩
    · intro v os hi hl hg
      cases hg
  | pop i =>
    simp only [step, Spec.step]
    refine edit_ok ha i _ _ ?_ ?_
    · intro v os ys hi _ _ hl hg
      split at hg
      · cases hg
      · rename_i hne; cases hg
        exact ⟨by simp only [List.length_dropLast]; omega, pop_ok hv hi hne hl⟩
    · intro v os hi hl hg
      split at hg <;> cases hg
  | shift i =>
    simp only [step, Spec.step]
    refine edit_ok ha i _ _ ?_ ?_
    · intro v os ys hi _ _ hl hg
      split at hg
      · cases hg
      · rename_i hne; cases hg
        exact ⟨by simp only [List.length_tail]; omega, shift1_ok hv hi hne hl⟩
    · intro v os hi hl hg
      split at hg <;> cases hg
  | spliceDel i idx del =>
    simp only [step, Spec.step]
    refine edit_ok ha i _ _ ?_ ?_
    · intro v os ys hi _ _ hl hg
      cases hg
      have hlen := items_length hi
      refine ⟨by unfold Spec.spliceAt; simp only [List.length_append, List.length_take, List.length_drop, List.length_nil]; omega, ?_⟩
      have := spliceDel_ok hv idx del hi rfl rfl hl
      rw [clampIdx_eq, clampCnt_eq, ← hlen] at this
      simpa [Spec.spliceAt] using this
    · intro v os hi hl hg
      cases hg
  | spliceEmpty i zf idx del c =>
    simp only [step, Spec.step]
    refine edit_ok ha i _ _ ?_ ?_
    · intro v os ys hi _ _ hl hg
      split at hg
      · rename_i hk
        obtain ⟨rfl, hf⟩ := fit_next hg
        have hlen := items_length hi
        refine ⟨hf, ?_⟩
        have hcl := clampCnt_le (v.size - idx.toNat) del
        rw [← clampCnt_eq, hlen] at hf ⊢
        rw [← blank_eq]
        rw [hlen] at hk
        refine spliceEmpty_ok hv idx del c hi hk rfl ?_
        unfold Spec.spliceAt at hf
        simp only [List.length_append, List.length_take, List.length_drop, List.length_replicate] at hf
        omega
      · cases hg
    · intro v os hi hl hg
      split at hg
      · exact absurd hg fit_trap
      · cases hg
  | shiftPop i a b =>
    simp only [step, Spec.step]
    refine edit_ok ha i _ _ ?_ ?_
    · intro v os ys hi _ _ hl hg
      cases hg
      have hlen := items_length hi
      refine ⟨by simp only [List.length_take, List.length_drop]; omega, ?_⟩
      have := shiftPop_ok hv a b hi rfl rfl hl
      rw [clampCnt_eq, clampCnt_eq, ← hlen] at this
      exact this
    · intro v os hi hl hg
      cases hg
  | reserve i c =>
    simp only [step, Spec.step]
    refine edit_ok ha i _ _ ?_ ?_
    · intro v os ys hi _ _ hl hg
      split at hg
      · rename_i hc; cases hg
        rcases reserve_ok hv c hi (by omega) with he | ⟨h', v', he, hd, _⟩
        · exact ⟨hl, Or.inl he⟩
        · exact ⟨hl, Or.inr ⟨h', v', he, hd⟩⟩
      · cases hg
    · intro v os hi hl hg
      split at hg <;> cases hg
  | set i k x =>
    simp only [step, Spec.step]
    refine edit_ok ha i _ _ ?_ ?_
    · intro v os ys hi _ _ hl hg
      split at hg
      · rename_i hk; cases hg
        exact ⟨by simpa using hl, set_ok hv k x hi hk hl⟩
      · cases hg
    · intro v os hi hl hg
      split at hg
      · cases hg
      · rename_i hk; exact set_trap hv k x hi hk hl
  | get i k =>
    simp only [Spec.step]
    split
    · rename_i xs hx
      obtain ⟨v, h1, h2, h3, h4, h5, h6⟩ := abs_var ha hx
      have hg := get_ok h4 k
      rw [h3] at hg
      split
      · rename_i hk
        rw [if_pos hk] at hg
        split
        · rename_i x hxk
          rw [hxk] at hg
          right
          refine ⟨{ s with out := s.out ++ [x] }, by simp only [step, h2, bind, Except.bind, hg], ha.inv, ha.vars, ?_, ha.small⟩
          show s.out ++ [x] = t.out ++ [x]
          rw [ha.out]
        · rename_i hxk
          rw [hxk] at hg
          right; simp only [step, h2, bind, Except.bind, hg]
      · rename_i hk
        rw [if_neg hk] at hg
        right; simp only [step, h2, bind, Except.bind, hg]
    · trivial
  | spliceMove i idx del j =>
    simp only [Spec.step]
    split
    · trivial
    · rename_i hne
      split
      · rename_i ys hy
        unfold Spec.edit
        split
        · rename_i xs hx
          simp only at hx
          rw [List.getElem?_set_ne (Ne.symm hne)] at hx
          obtain ⟨v, w, e1, e2, x1, x2, hinv, hi, hj, hp, l1, l2⟩ := abs_var2 ha hne hx hy
          subst x1 x2
          have hlen := items_length hinv
          split
          · rename_i zs hz
            simp only at hz
            split at hz
            · rename_i hk
              obtain ⟨rfl, hf⟩ := fit_next hz
              rw [← clampCnt_eq, hlen] at hf ⊢
              rw [hlen] at hk
              have hcl := clampCnt_le (v.size - idx.toNat) del
              have hf' := hf
              unfold Spec.spliceAt at hf'
              simp only [List.length_append, List.length_take, List.length_drop] at hf'
              rcases spliceMove_ok hv idx del hinv hk rfl (by omega) with he | ⟨h', v', s', he, g1, g2, g3⟩
              · left; simp only [step, if_neg hne, e1, e2, bind, Except.bind, he]
              · obtain ⟨h2, d1, d2, d3⟩ := destroy_ok (inv_swap g1)
                right
                refine ⟨_, by simp only [step, if_neg hne, e1, e2, bind, Except.bind, he, d1]; rfl, ?_⟩
                exact abs_set2 ha hne hi hj (w' := none) (v' := v') (ys := none) d2
                  (g2.trans (fun o ho => d3 o (by simp [ho]))) ((Frame.items d3 (by simp)).trans g3) rfl hf (by simp)
            · cases hz
          · rename_i hz
            simp only at hz
            split at hz
            · exact absurd hz fit_trap
            · cases hz
          · trivial
        · trivial
      · trivial
  | appendMove i del j =>
    simp only [Spec.step]
    split
    · trivial
    · rename_i hne
      split
      · rename_i ys hy
        unfold Spec.edit
        split
        · rename_i xs hx
          simp only at hx
          rw [List.getElem?_set_ne (Ne.symm hne)] at hx
          obtain ⟨v, w, e1, e2, x1, x2, hinv, hi, hj, hp, l1, l2⟩ := abs_var2 ha hne hx hy
          subst x1 x2
          have hlen := items_length hinv
          split
          · rename_i zs hz
            simp only at hz
            split at hz
            · rename_i hk
              obtain ⟨rfl, hf⟩ := fit_next hz
              have hf' := hf
              simp only [List.length_append, List.length_take] at hf'
              rcases appendMove_ok hv del hinv (by omega) (by omega) with he | ⟨h', v', s', he, g1, g2, g3⟩
              · left; simp only [step, if_neg hne, e1, e2, bind, Except.bind, he]
              · obtain ⟨h2, d1, d2, d3⟩ := destroy_ok (inv_swap g1)
                right
                refine ⟨_, by simp only [step, if_neg hne, e1, e2, bind, Except.bind, he, d1]; rfl, ?_⟩
                exact abs_set2 ha hne hi hj (w' := none) (v' := v') (ys := none) d2
                  (g2.trans (fun o ho => d3 o (by simp [ho]))) ((Frame.items d3 (by simp)).trans g3) rfl hf (by simp)
            · cases hz
          · rename_i hz
            simp only at hz
            split at hz
            · exact absurd hz fit_trap
            · cases hz
          · trivial
        · trivial
      · trivial
  | spliceCopy i idx del j a n adj =>
    simp only [Spec.step]
    split
    · rename_i ws hw
      obtain ⟨w, k1, k2, k3, k4, k5, k6⟩ := abs_var ha hw
      have hlenW := items_length k4
      rw [k3] at hlenW
      have hst : step cfg zero s (.spliceCopy i idx del j a n adj)
          = s.upd i fun h v => spliceCopy cfg h v w (decide (i = j)) a n adj idx del := by
        simp only [step, k2, bind, Except.bind]
      rw [hst]
      refine edit_ok ha i _ _ ?_ ?_
      · intro v os ys hi hvi hos hl hg
        split at hg
        · rename_i hk
          obtain ⟨a1, a2, a3, a4⟩ := hk
          obtain ⟨rfl, hf⟩ := fit_next hg
          refine ⟨hf, ?_⟩
          have hlen := items_length hi
          rw [hlen] at a2 a4
          subst k3
          by_cases hij : i = j
          · subst hij
            rw [k1] at hvi; cases hvi
            rw [decide_eq_true rfl]
            refine spliceCopy_self_ok hv hi ⟨a1, a2⟩ (by omega) (by omega) (fun ⟨b1, b2, b3, b4⟩ => ?_) hf
            refine a4 ⟨b1, b2, b3, b4, fun h0 => ?_, Or.inl (List.prefix_refl _)⟩
            rw [h0] at hlen a3
            simp only [List.length_nil] at hlen a3
            omega
          · rw [decide_eq_false hij]
            have hget : (s.vars.set i none)[j]? = some (some w) := by rw [List.getElem?_set_ne hij]; exact k1
            have hpm : os.Perm (w :: live ((s.vars.set i none).set j none)) := by rw [hos]; exact live_get hget
            have hzz : ∀ b, owns b v = true → owns b w = true → (v.size = 0 ↔ w.size = 0) :=
              hz v (by simp only [live, List.mem_filterMap, id]; exact ⟨_, List.mem_of_getElem? hvi, rfl⟩)
                w (by simp only [live, List.mem_filterMap, id]; exact ⟨_, List.mem_of_getElem? k1, rfl⟩)
            exact (spliceCopy_other_ok hv (hi.perm (hpm.cons v)) ⟨a1, a2⟩ (by omega) (by omega) a4 hzz hf).perm hpm.symm
        · cases hg
      · intro v os hi hl hg
        split at hg
        · exact absurd hg fit_trap
        · cases hg
    · trivial
  | appendCopy i del j a n adj =>
    simp only [Spec.step]
    split
    · rename_i ws hw
      obtain ⟨w, k1, k2, k3, k4, k5, k6⟩ := abs_var ha hw
      have hlenW := items_length k4
      rw [k3] at hlenW
      have hst : step cfg zero s (.appendCopy i del j a n adj)
          = s.upd i fun h v => appendCopy cfg h v w (decide (i = j)) a n adj del := by
        simp only [step, k2, bind, Except.bind]
      rw [hst]
      refine edit_ok ha i _ _ ?_ ?_
      · intro v os ys hi hvi hos hl hg
        split at hg
        · rename_i hk
          obtain ⟨a1, a2, a3, a4⟩ := hk
          obtain ⟨rfl, hf⟩ := fit_next hg
          refine ⟨hf, ?_⟩
          have hlen := items_length hi
          have hf' := hf
          simp only [List.length_append, List.length_take, List.length_drop] at hf'
          rw [hlen] at a2 a4
          subst k3
          by_cases hij : i = j
          · subst hij
            rw [k1] at hvi; cases hvi
            rw [decide_eq_true rfl]
            refine appendCopy_self_ok hv hi ⟨a1, a2⟩ (by omega) (by omega) (fun ⟨b2, b3, b4⟩ => ?_) (by omega)
            refine a4 ⟨b2, b3, b4, fun h0 => ?_, Or.inl (List.prefix_refl _)⟩
            rw [h0] at hlen a3
            simp only [List.length_nil] at hlen a3
            omega
          · rw [decide_eq_false hij]
            have hget : (s.vars.set i none)[j]? = some (some w) := by rw [List.getElem?_set_ne hij]; exact k1
            have hpm : os.Perm (w :: live ((s.vars.set i none).set j none)) := by rw [hos]; exact live_get hget
            have hzz : ∀ b, owns b v = true → owns b w = true → (v.size = 0 ↔ w.size = 0) :=
              hz v (by simp only [live, List.mem_filterMap, id]; exact ⟨_, List.mem_of_getElem? hvi, rfl⟩)
                w (by simp only [live, List.mem_filterMap, id]; exact ⟨_, List.mem_of_getElem? k1, rfl⟩)
            exact (appendCopy_other_ok hv (hi.perm (hpm.cons v)) ⟨a1, a2⟩ (by omega) (by omega) a4 hzz (by omega)).perm hpm.symm
        · cases hg
      · intro v os hi hl hg
        split at hg
        · exact absurd hg fit_trap
        · cases hg
    · trivial

theorem run_refines {cfg : Cfg} (hv : Valid cfg) (zero : α) {s : State α} {t} (ha : Abs cfg s t) (hz : Zero (live s.vars))
    (ops : List (Op α)) :
    Match cfg (run cfg zero s ops) (Spec.run (tyOf cfg) zero t ops) := by
  induction ops generalizing s t with
  | nil => exact Or.inr ⟨s, rfl, ha⟩
  | cons op ops ih =>
    have hs := step_refines hv zero ha hz op
    simp only [run, Spec.run, bind, Except.bind]
    cases hq : Spec.step (tyOf cfg) zero t op with
    | next t' =>
      rw [hq] at hs
      rcases hs with he | ⟨s', he, ha'⟩
      · rw [he]
        simp only
        cases Spec.run (tyOf cfg) zero t' ops with
        | next _ => exact Or.inl rfl
        | trap => exact Or.inl rfl
        | illegal => trivial
      · rw [he]; exact ih ha' (step_zero zero ha.inv hz op he)
    | trap =>
      rw [hq] at hs
      rcases hs with he | he
      · rw [he]; exact Or.inl rfl
      · rw [he]; exact Or.inr rfl
    | illegal => trivial

/-- Everything a program can see of a variable: for every index below its size, what `operator[]` gives. -/
def see (s : State α) (v : Hdr α) : List (M (Option α)) := (List.range v.size).map fun (k : Nat) => get s.heap v (k : Int)

theorem see_eq {cfg : Cfg} {s : State α} {v os} (hi : Inv cfg s.heap (v :: os)) :
    see s v = (items s.heap v).map .ok := by
  have hlen := items_length hi
  unfold see
  apply List.ext_getElem
  · simp [hlen]
  · intro k h1 h2
    simp only [List.getElem_map, List.getElem_range]
    rw [get_ok hi, if_pos (by omega)]
    simp only [Int.toNat_natCast]
    have : k < (items s.heap v).length := by simpa using h2
    rw [List.getElem?_eq_getElem this]

theorem abs_see {cfg : Cfg} {s : State α} {t} (ha : Abs cfg s t) :
    s.vars.map (Option.map (see s)) = t.vars.map (Option.map (List.map .ok)) := by
  rw [← ha.vars, List.map_map]
  apply List.map_congr_left
  intro o ho
  cases o with
  | none => rfl
  | some v =>
    simp only [Function.comp, Option.map_some, Option.some.injEq]
    obtain ⟨i, hi, he⟩ := List.mem_iff_getElem.1 ho
    exact see_eq (ha.inv.perm (live_get (i := i) (v := v) (by rw [List.getElem?_eq_getElem hi, he])))

/-- **C01** Value semantics: whatever program over whatever item type, if it makes sense on independent lists then the
vector program either dies in the allocator, or reads exactly the same items along the way and leaves every variable
with exactly the items the list program computes (and exactly the same variables destroyed). -/
theorem vectors_are_values (cfg : Cfg) (hv : Valid cfg) (zero : α) (ops : List (Op α)) (t : Spec.SState α)
    (hspec : Spec.run ⟨cfg.copiable, cfg.trivial⟩ zero Spec.start ops = .next t) :
    run cfg zero start ops = .error .exit ∨
    ∃ s, run cfg zero start ops = .ok s ∧ s.out = t.out ∧
      s.vars.map (Option.map (see s)) = t.vars.map (Option.map (List.map .ok)) := by
  have := run_refines hv zero (abs_start cfg) zero_start ops
  rw [show tyOf cfg = ⟨cfg.copiable, cfg.trivial⟩ from rfl, hspec] at this
  rcases this with he | ⟨s, he, ha⟩
  · exact Or.inl he
  · exact Or.inr ⟨s, he, ha.out, abs_see ha⟩

/-- **C01** An out-of-range item access is caught by the bounds check, and nothing else is. -/
theorem bounds_checks_fire (cfg : Cfg) (hv : Valid cfg) (zero : α) (ops : List (Op α))
    (hspec : Spec.run ⟨cfg.copiable, cfg.trivial⟩ zero Spec.start ops = .trap) :
    run cfg zero start ops = .error .exit ∨ run cfg zero start ops = .error .trap := by
  have := run_refines hv zero (abs_start cfg) zero_start ops
  rw [show tyOf cfg = ⟨cfg.copiable, cfg.trivial⟩ from rfl, hspec] at this
  exact this

/-- **C02** Memory safety: a program that respects the API (`illegal` is the API's own fault) never touches a dead block,
a slot outside a block, never reads or destroys a slot without a live item (of a non-trivial type), never constructs
over a live one, never frees a block that still holds items or that was freed before. -/
theorem vectors_are_memory_safe (cfg : Cfg) (hv : Valid cfg) (zero : α) (ops : List (Op α))
    (hspec : Spec.run ⟨cfg.copiable, cfg.trivial⟩ zero Spec.start ops ≠ .illegal) :
    run cfg zero start ops ≠ .error .ub := by
  have := run_refines hv zero (abs_start cfg) zero_start ops
  rw [show tyOf cfg = ⟨cfg.copiable, cfg.trivial⟩ from rfl] at this
  cases h : Spec.run ⟨cfg.copiable, cfg.trivial⟩ zero Spec.start ops with
  | next t =>
    rw [h] at this
    rcases this with he | ⟨s, he, _⟩ <;> rw [he] <;> simp
  | trap =>
    rw [h] at this
    rcases this with he | he <;> rw [he] <;> simp
  | illegal => exact absurd h hspec

/-- **C03** No leaks: once every variable is destroyed, no heap block is left.  (That the items in the blocks were
destroyed first is part of C02: releasing a block holding a live item is `ub`.) -/
theorem vectors_do_not_leak (cfg : Cfg) (hv : Valid cfg) (zero : α) (ops : List (Op α)) (t : Spec.SState α)
    (hspec : Spec.run ⟨cfg.copiable, cfg.trivial⟩ zero Spec.start ops = .next t) (hdead : ∀ x ∈ t.vars, x = none)
    (s : State α) (hrun : run cfg zero start ops = .ok s) : ∀ b, s.heap.blk b = none := by
  have := run_refines hv zero (abs_start cfg) zero_start ops
  rw [show tyOf cfg = ⟨cfg.copiable, cfg.trivial⟩ from rfl, hspec, hrun] at this
  rcases this with he | ⟨s', he, ha⟩
  · cases he
  · cases he
    have hl : live s.vars = [] := by
      unfold live
      rw [List.filterMap_eq_nil_iff]
      intro o ho
      have : o.map (items s.heap) ∈ t.vars := by rw [← ha.vars]; exact List.mem_map_of_mem ho
      have := hdead _ this
      cases o with
      | none => rfl
      | some v => simp at this
    intro b
    cases hb : s.heap.blk b with
    | none => rfl
    | some blk =>
      have := ha.inv.1.count b blk hb
      rw [hl] at this
      simp at this

/-- **C03** At any time, the blocks in use are exactly those some live variable points at: nothing is kept alive by
anything else, and for item types with a destructor no item is stored anywhere but in the first `size` slots of a
block some live variable points at. -/
theorem blocks_belong_to_variables (cfg : Cfg) (hv : Valid cfg) (zero : α) (ops : List (Op α)) (t : Spec.SState α)
    (hspec : Spec.run ⟨cfg.copiable, cfg.trivial⟩ zero Spec.start ops = .next t)
    (s : State α) (hrun : run cfg zero start ops = .ok s) (b : Nat) (blk : Block α) (hb : s.heap.blk b = some blk) :
    (∃ n c sh, some (Hdr.big b n c sh) ∈ s.vars) ∧
    (s.vars.countP fun o => match o with | some v => owns b v | none => false) = blk.arc + 1 := by
  have := run_refines hv zero (abs_start cfg) zero_start ops
  rw [show tyOf cfg = ⟨cfg.copiable, cfg.trivial⟩ from rfl, hspec, hrun] at this
  rcases this with he | ⟨s', he, ha⟩
  · cases he
  · cases he
    have hc := ha.inv.1.count b blk hb
    have hcount : ∀ l : List (Option (Hdr α)), (live l).countP (owns b)
        = l.countP fun o => match o with | some v => owns b v | none => false := by
      intro l
      induction l with
      | nil => rfl
      | cons a l ih =>
        unfold live at ih ⊢
        cases a with
        | none => simpa using ih
        | some v => simp [List.countP_cons, ih]
    refine ⟨?_, by rw [← hcount, hc]⟩
    have hpos : 0 < (live s.vars).countP (owns b) := by omega
    obtain ⟨v, hv1, hv2⟩ := List.countP_pos_iff.1 hpos
    unfold live at hv1
    obtain ⟨o, ho1, ho2⟩ := List.mem_filterMap.1 hv1
    simp only [id] at ho2
    subst ho2
    cases v with
    | small => simp [owns] at hv2
    | big b' n c sh =>
      have : b' = b := by simpa [owns] using hv2
      subst this
      exact ⟨n, c, sh, ho1⟩

/-- What a program prefix must establish: variable `i` holds `xs`. -/
def Holds (cfg : Cfg) (zero : α) (ops : List (Op α)) (i : Nat) (xs : Spec.Val α) : Prop :=
  ∃ t, Spec.run ⟨cfg.copiable, cfg.trivial⟩ zero Spec.start ops = .next t ∧ t.vars[i]? = some (some xs)

/-- The program dies in the allocator, or ends with variable `i` showing `ys`. -/
def EndsWith (cfg : Cfg) (zero : α) (ops : List (Op α)) (i : Nat) (ys : Spec.Val α) : Prop :=
  run cfg zero start ops = .error .exit ∨
  ∃ s v, run cfg zero start ops = .ok s ∧ s.vars[i]? = some (some v) ∧ see s v = ys.map .ok

theorem spec_run_append (ty : Spec.Ty) (zero : α) (t : Spec.SState α) (ops : List (Op α)) (op : Op α) :
    Spec.run ty zero t (ops ++ [op]) = match Spec.run ty zero t ops with
      | .next t' => Spec.step ty zero t' op
      | .trap => .trap
      | .illegal => .illegal := by
  induction ops generalizing t with
  | nil =>
    simp only [List.nil_append, Spec.run]
    cases Spec.step ty zero t op <;> rfl
  | cons o ops ih =>
    simp only [List.cons_append, Spec.run]
    cases Spec.step ty zero t o with
    | next t' => exact ih t'
    | trap => rfl
    | illegal => rfl

theorem ends_of_edit (cfg : Cfg) (hv : Valid cfg) (zero : α) (ops : List (Op α)) (op : Op α) (i : Nat) (xs ys : Spec.Val α)
    (hh : Holds cfg zero ops i xs)
    (hs : ∀ t : Spec.SState α, t.vars[i]? = some (some xs) →
      Spec.step ⟨cfg.copiable, cfg.trivial⟩ zero t op = .next { t with vars := t.vars.set i (some ys) }) :
    EndsWith cfg zero (ops ++ [op]) i ys := by
  obtain ⟨t, h1, h2⟩ := hh
  have hrun : Spec.run ⟨cfg.copiable, cfg.trivial⟩ zero Spec.start (ops ++ [op])
      = .next { t with vars := t.vars.set i (some ys) } := by
    rw [spec_run_append, h1]; exact hs t h2
  rcases vectors_are_values cfg hv zero _ _ hrun with he | ⟨s, he, _, hsee⟩
  · exact Or.inl he
  · right
    have hget := congrArg (fun l => l[i]?) hsee
    simp only [List.getElem?_map] at hget
    rw [List.getElem?_set_self (List.getElem?_eq_some_iff.1 h2).1] at hget
    cases hvi : s.vars[i]? with
    | none => rw [hvi] at hget; simp at hget
    | some o =>
      rw [hvi] at hget
      cases o with
      | none => simp at hget
      | some v =>
        simp only [Option.map_some, Option.some.injEq] at hget
        exact ⟨s, v, he, hvi, hget⟩

theorem holds_small (cfg : Cfg) (hv : Valid cfg) (zero : α) (ops : List (Op α)) (i : Nat) (xs : Spec.Val α)
    (t : Spec.SState α) (h : Spec.run ⟨cfg.copiable, cfg.trivial⟩ zero Spec.start ops = .next t)
    (hx : t.vars[i]? = some (some xs)) (s : State α) (hr : run cfg zero start ops = .ok s) : xs.length + 1 < 2 ^ 31 := by
  have := run_refines hv zero (abs_start cfg) zero_start ops
  rw [show tyOf cfg = ⟨cfg.copiable, cfg.trivial⟩ from rfl, h, hr] at this
  rcases this with he | ⟨s', he, ha⟩
  · cases he
  · exact ha.small xs (List.mem_of_getElem? hx)

theorem fit_ok {xs : Spec.Val α} (h : xs.length + 1 < 2 ^ 31) : Spec.fit xs = .next xs := if_pos h

/-- **C04** Removing: for every reachable vector and *every* index and count, negative or past the end included, the
result is the list with the clamped range cut out. -/
theorem removals_clamp (cfg : Cfg) (hv : Valid cfg) (zero : α) (ops : List (Op α)) (i : Nat) (xs : Spec.Val α)
    (hh : Holds cfg zero ops i xs) (idx del n m : Int) :
    EndsWith cfg zero (ops ++ [.spliceDel i idx del]) i
      (xs.take (Spec.clampTo xs.length idx) ++
        xs.drop (Spec.clampTo xs.length idx + Spec.clampTo (xs.length - Spec.clampTo xs.length idx) del)) ∧
    EndsWith cfg zero (ops ++ [.shiftPop i n m]) i
      ((xs.drop (Spec.clampTo xs.length n)).take
        (xs.length - Spec.clampTo xs.length n - Spec.clampTo (xs.length - Spec.clampTo xs.length n) m)) ∧
    EndsWith cfg zero (ops ++ [.shrink i n]) i (xs.take n.toNat) ∧
    EndsWith cfg zero (ops ++ [.clear i]) i [] ∧
    (xs ≠ [] → EndsWith cfg zero (ops ++ [.pop i]) i xs.dropLast ∧ EndsWith cfg zero (ops ++ [.shift i]) i xs.tail) := by
  refine ⟨?_, ?_, ?_, ?_, fun hne => ⟨?_, ?_⟩⟩ <;> refine ends_of_edit cfg hv zero ops _ i xs _ hh (fun t ht => ?_) <;>
    simp only [Spec.step, Spec.edit, ht]
  · simp [Spec.spliceAt]
  · rw [if_neg hne]
  · rw [if_neg hne]

/-- **C04** Adding and resizing: with the insertion index inside the vector and the result below 2³¹ - 1 items, for every
reachable vector, the result is the list splice.  (`_partial`: an index outside the vector is not clamped by the
inserting operations, see `insert_out_of_range`.) -/
theorem insertions_partial (cfg : Cfg) (hv : Valid cfg) (zero : α) (ops : List (Op α)) (i : Nat) (xs : Spec.Val α)
    (hh : Holds cfg zero ops i xs) (x : α) (idx del n : Int)
    (hidx : 0 ≤ idx ∧ idx ≤ xs.length) (hfit : max xs.length n.toNat + n.toNat + 2 < 2 ^ 31) :
    EndsWith cfg zero (ops ++ [.push i x]) i (xs ++ [some x]) ∧
    EndsWith cfg zero (ops ++ [.unshift i x]) i (some x :: xs) ∧
    EndsWith cfg zero (ops ++ [.insert i idx x]) i (xs.take idx.toNat ++ [some x] ++ xs.drop idx.toNat) ∧
    EndsWith cfg zero (ops ++ [.resize i true n]) i (xs.take n.toNat ++ List.replicate (n.toNat - xs.length) (some zero)) ∧
    EndsWith cfg zero (ops ++ [.grow i true n]) i (xs ++ List.replicate (n.toNat - xs.length) (some zero)) ∧
    EndsWith cfg zero (ops ++ [.spliceEmpty i true idx del n]) i
      (xs.take idx.toNat ++ List.replicate n.toNat (some zero) ++
        xs.drop (idx.toNat + Spec.clampTo (xs.length - idx.toNat) del)) ∧
    EndsWith cfg zero (ops ++ [.reserve i n]) i xs := by
  refine ⟨?_, ?_, ?_, ?_, ?_, ?_, ?_⟩ <;> refine ends_of_edit cfg hv zero ops _ i xs _ hh (fun t ht => ?_) <;>
    simp only [Spec.step, Spec.edit, ht, if_pos hidx, Spec.fresh, Bool.not_true, Bool.and_false, Bool.false_eq_true, if_false]
  · rw [fit_ok (by simp; omega)]
  · rw [fit_ok (by simp; omega)]
  · rw [fit_ok (by unfold Spec.spliceAt; simp; omega)]; rfl
  · rw [fit_ok (by simp; omega)]
  · rw [fit_ok (by simp; omega)]
  · rw [fit_ok (by unfold Spec.spliceAt; simp; omega)]; rfl
  · rw [if_pos (by omega)]

/-! ### Where the properties fail -/

/-- four-byte trivially copyable items (`i32`): three fit inline -/
def i32Cfg : Cfg := { sz := 4, align := 4, trivial := true, copiable := true }

/-- **C04** fails for insertion past the end: index 20 into an empty vector writes outside the storage … -/
theorem insert_out_of_range : run i32Cfg (0 : Nat) start [.new, .insert 0 20 7] = .error .ub := rfl

/-- … and index 2 into an empty vector leaves a vector of one item that is not the inserted one. -/
theorem insert_past_end_loses_item :
    (run i32Cfg (0 : Nat) start [.new, .insert 0 2 7, .get 0 0]).map (·.out) = .ok [none] := rfl

/-- **C04** fails for `pop()` and `shift()` of an empty vector. -/
theorem pop_empty : run i32Cfg (0 : Nat) start [.new, .pop 0] = .error .ub ∧
    run i32Cfg (0 : Nat) start [.new, .shift 0] = .error .ub := ⟨rfl, rfl⟩

/-- **C08** fails for `v.splice(0, v.size(), v[0..3])`: nothing happens, although the result should be the three
items.  Splicing from a copy of `v` taken out first (a literal with the same items) gives the right answer. -/
theorem splice_copy_wrong :
    (run i32Cfg (0 : Nat) start [.lit [1, 2, 3, 4, 5], .spliceCopy 0 0 5 0 0 3 false]).map
      (fun s => s.vars.map (Option.map Hdr.size)) = .ok [some 5] ∧
    (run i32Cfg (0 : Nat) start [.lit [1, 2, 3, 4, 5], .lit [1, 2, 3, 4, 5], .spliceCopy 0 0 5 1 0 3 false]).map
      (fun s => s.vars.map (Option.map Hdr.size)) = .ok [some 3, some 5] := ⟨rfl, rfl⟩

/-- **C08** The same no-op hits `append` with everything deleted. -/
theorem append_copy_wrong :
    (run i32Cfg (0 : Nat) start [.lit [1, 2, 3, 4, 5], .appendCopy 0 5 0 0 3 false]).map
      (fun s => s.vars.map (Option.map Hdr.size)) = .ok [some 5] := rfl

/-- **C08** … and it does not take the same variable: a copy that still shares the storage is enough. -/
theorem splice_copy_wrong_shared :
    (run i32Cfg (0 : Nat) start [.lit [1, 2, 3, 4, 5], .copyNew 0, .spliceCopy 1 0 5 0 0 3 false]).map
      (fun s => s.vars.map (Option.map Hdr.size)) = .ok [some 5, some 5] := rfl

/-- **C08** Copying from a view into any vector, the destination itself or one sharing its storage included, gives what
copying the viewed items out first gives.  (`_partial`: the calls of `splice_copy_wrong` - replace everything by a
view of a different length starting at item 0 of a vector with the same first items - are excluded, since the two may
share storage; in particular everything goes when the destination is empty.) -/
theorem aliasing_sources_partial (cfg : Cfg) (hv : Valid cfg) (zero : α) (ops : List (Op α)) (i j : Nat)
    (xs ws : Spec.Val α) (t : Spec.SState α) (ht : Spec.run ⟨cfg.copiable, cfg.trivial⟩ zero Spec.start ops = .next t)
    (hi : t.vars[i]? = some (some xs)) (hj : t.vars[j]? = some (some ws)) (idx del : Int) (a n : Nat) (adj : Bool)
    (hidx : 0 ≤ idx ∧ idx ≤ xs.length) (hview : a + n ≤ ws.length) (hfit : xs.length + n + 1 < 2 ^ 31)
    (hbug : ¬ (idx = 0 ∧ del = xs.length ∧ a = 0 ∧ n ≠ xs.length ∧ xs ≠ [] ∧ (xs <+: ws ∨ ws <+: xs))) :
    EndsWith cfg zero (ops ++ [.spliceCopy i idx del j a n adj]) i
      (xs.take idx.toNat ++ (ws.drop a).take n ++ xs.drop (idx.toNat + Spec.clampTo (xs.length - idx.toNat) del)) ∧
    (0 ≤ del ∧ del ≤ xs.length → ¬ (del = xs.length ∧ a = 0 ∧ n ≠ xs.length ∧ xs ≠ [] ∧ (xs <+: ws ∨ ws <+: xs)) →
      EndsWith cfg zero (ops ++ [.appendCopy i del j a n adj]) i
        (xs.take (xs.length - del.toNat) ++ (ws.drop a).take n)) := by
  have key : ∀ (op : Op α) (ys : Spec.Val α),
      Spec.step ⟨cfg.copiable, cfg.trivial⟩ zero t op = .next { t with vars := t.vars.set i (some ys) } →
      EndsWith cfg zero (ops ++ [op]) i ys := by
    intro op ys hs
    have hrun : Spec.run ⟨cfg.copiable, cfg.trivial⟩ zero Spec.start (ops ++ [op])
        = .next { t with vars := t.vars.set i (some ys) } := by
      rw [spec_run_append, ht]; exact hs
    rcases vectors_are_values cfg hv zero _ _ hrun with he | ⟨s, he, _, hsee⟩
    · exact Or.inl he
    · right
      have hget := congrArg (fun l => l[i]?) hsee
      simp only [List.getElem?_map] at hget
      rw [List.getElem?_set_self (List.getElem?_eq_some_iff.1 hi).1] at hget
      cases hvi : s.vars[i]? with
      | none => rw [hvi] at hget; simp at hget
      | some o =>
        rw [hvi] at hget
        cases o with
        | none => simp at hget
        | some v =>
          simp only [Option.map_some, Option.some.injEq] at hget
          exact ⟨s, v, he, hvi, hget⟩
  refine ⟨key _ _ ?_, fun hdel hb2 => key _ _ ?_⟩
  · simp only [Spec.step, hj, Spec.edit, hi]
    rw [if_pos ⟨hidx.1, hidx.2, hview, hbug⟩, fit_ok (by unfold Spec.spliceAt; simp; omega)]; rfl
  · simp only [Spec.step, hj, Spec.edit, hi]
    rw [if_pos ⟨hdel.1, hdel.2, hview, hb2⟩, fit_ok (by simp; omega)]

/-! ### Non-trivial instances -/

/-- a type with a destructor: no inline storage -/
def strCfg : Cfg := { sz := 16, align := 8, trivial := false, copiable := true }

example : Valid i32Cfg ∧ Valid strCfg := ⟨⟨by decide, by decide⟩, ⟨by decide, by decide⟩⟩

/-- a program with sharing, growth from inline to heap, self-splicing, moving and destruction -/
def demo : List (Op Nat) :=
  [.lit [1, 2, 3, 4], .copyNew 0, .push 1 5, .spliceCopy 0 1 2 0 0 4 false, .set 1 0 9, .get 0 0, .get 1 0, .spliceDel 1 (-3) 2,
   .appendMove 0 1 1, .moveNew 0, .drop 0, .get 2 2, .drop 2]

example : Spec.run ⟨true, true⟩ 0 Spec.start demo = .next { vars := [none, none, none], out := [some 1, some 9, some 2] } := rfl
example : Spec.run ⟨true, false⟩ 0 Spec.start demo = .next { vars := [none, none, none], out := [some 1, some 9, some 2] } := rfl
example : (run i32Cfg 0 start demo).map (·.out) = .ok [some 1, some 9, some 2] := rfl
example : (run strCfg 0 start demo).map (·.out) = .ok [some 1, some 9, some 2] := rfl

/-- filling an empty vector from another, even from one it was a copy of -/
example : Spec.run ⟨true, true⟩ 0 Spec.start [.lit [1, 2, 3, 4, 5], .copyNew 0, .shrink 1 0, .appendCopy 1 0 0 0 4 false] =
    .next { vars := [some [some 1, some 2, some 3, some 4, some 5], some [some 1, some 2, some 3, some 4]], out := [] } := by
  simp [Spec.run, Spec.step, Spec.start, Spec.edit, Spec.fit, Spec.Agree]

end Verif.Vec
