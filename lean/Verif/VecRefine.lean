import Verif.VecOps2
import Verif.VecSpec
/-! Programs over vectors refine programs over lists. -/
namespace Verif.Vec
open Verif.Pack (Cfg)
variable {α : Type}

/-- headers of the live variables -/
def live (vars : List (Option (Hdr α))) : List (Hdr α) := vars.filterMap id

def tyOf (cfg : Cfg) : Spec.Ty := ⟨cfg.copiable, cfg.trivial⟩

/-- The concrete state represents the list state. -/
structure Abs (cfg : Cfg) (s : State α) (t : Spec.SState α) : Prop where
  inv : Inv cfg s.heap (live s.vars)
  vars : s.vars.map (Option.map (items s.heap)) = t.vars
  out : s.out = t.out
  small : ∀ xs, some xs ∈ t.vars → xs.length + 1 < 2 ^ 31

theorem live_set {vars : List (Option (Hdr α))} {i} (h : i < vars.length) (x : Option (Hdr α)) :
    (live (vars.set i x)).Perm (live [x] ++ live (vars.set i none)) := by
  unfold live
  induction vars generalizing i with
  | nil => simp at h
  | cons a l ih =>
    cases i with
    | zero => cases x <;> simp
    | succ i =>
      simp only [List.set_cons_succ]
      have ih := ih (i := i) (by simpa using h)
      cases a with
      | none => simpa using ih
      | some a =>
        simp only [List.filterMap_cons, id]
        refine (List.Perm.cons a ih).trans ?_
        exact List.perm_middle.symm

theorem live_get {vars : List (Option (Hdr α))} {i v} (h : vars[i]? = some (some v)) :
    (live vars).Perm (v :: live (vars.set i none)) := by
  have hlt := (List.getElem?_eq_some_iff.1 h).1
  have := live_set hlt (some v)
  rw [show vars.set i (some v) = vars by
    have := (List.getElem?_eq_some_iff.1 h).2
    rw [← this]; exact List.set_getElem_self hlt] at this
  exact this

/-- agreement of outcomes -/
def Match (cfg : Cfg) (r : M (State α)) : Spec.R (Spec.SState α) → Prop
  | .next t => r = .error .exit ∨ ∃ s, r = .ok s ∧ Abs cfg s t
  | .trap => r = .error .exit ∨ r = .error .trap
  | .illegal => True

theorem abs_var {cfg : Cfg} {s : State α} {t} (ha : Abs cfg s t) {i xs} (h : t.vars[i]? = some (some xs)) :
    ∃ v, s.vars[i]? = some (some v) ∧ s.var i = .ok v ∧ items s.heap v = xs ∧
      Inv cfg s.heap (v :: live (s.vars.set i none)) ∧ i < s.vars.length ∧ xs.length + 1 < 2 ^ 31 := by
  have hm := ha.vars
  rw [← hm, List.getElem?_map] at h
  cases hv : s.vars[i]? with
  | none => rw [hv] at h; simp at h
  | some o =>
    rw [hv] at h
    cases o with
    | none => simp at h
    | some v =>
      simp only [Option.map_some, Option.some.injEq] at h
      refine ⟨v, rfl, by unfold State.var; rw [hv], h, ha.inv.perm (live_get hv), (List.getElem?_eq_some_iff.1 hv).1, ?_⟩
      apply ha.small
      rw [← hm, List.mem_map]
      exact ⟨some v, List.mem_of_getElem? hv, by simp [h]⟩

theorem map_set (f : Hdr α → Spec.Val α) (vars : List (Option (Hdr α))) (i) (x : Option (Hdr α)) :
    (vars.set i x).map (Option.map f) = (vars.map (Option.map f)).set i (x.map f) := by
  rw [List.map_set]

/-- items of all variables but `i` are unchanged -/
theorem map_frame {h h' : Heap α} {vars : List (Option (Hdr α))} {i} (hf : Frame h h' (live (vars.set i none))) :
    (vars.set i none).map (Option.map (items h')) = (vars.set i none).map (Option.map (items h)) := by
  apply List.map_congr_left
  intro o ho
  cases o with
  | none => rfl
  | some w =>
    simp only [Option.map_some, Option.some.injEq]
    apply hf.items
    unfold live
    rw [List.mem_filterMap]
    exact ⟨some w, ho, rfl⟩

/-- replacing one variable -/
theorem abs_set {cfg : Cfg} {s : State α} {t} (ha : Abs cfg s t) {i} (hlt : i < s.vars.length) {h' : Heap α} {v' : Hdr α} {ys}
    (hd : Done cfg s.heap (live (s.vars.set i none)) h' v' ys) (hys : ys.length + 1 < 2 ^ 31) :
    Abs cfg { s with heap := h', vars := s.vars.set i (some v') } { t with vars := t.vars.set i (some ys) } := by
  refine ⟨hd.inv.perm (live_set hlt _).symm, ?_, ha.out, ?_⟩
  · show (s.vars.set i (some v')).map (Option.map (items h')) = t.vars.set i (some ys)
    rw [show s.vars.set i (some v') = (s.vars.set i none).set i (some v') by rw [List.set_set], map_set, map_frame hd.frame,
      map_set, List.set_set, ha.vars]
    simp [hd.items]
  · intro xs hxs
    rcases List.mem_or_eq_of_mem_set hxs with hxs | hxs
    · exact ha.small xs hxs
    · cases hxs; exact hys

/-- adding a variable -/
theorem abs_add {cfg : Cfg} {s : State α} {t} (ha : Abs cfg s t) {h' : Heap α} {v' : Hdr α} {ys}
    (hd : Done cfg s.heap (live s.vars) h' v' ys) (hys : ys.length + 1 < 2 ^ 31) :
    Abs cfg { s with heap := h', vars := s.vars ++ [some v'] } { t with vars := t.vars ++ [some ys] } := by
  refine ⟨hd.inv.perm ?_, ?_, ha.out, ?_⟩
  · unfold live; simp only [List.filterMap_append, List.filterMap_cons, List.filterMap_nil, id]
    exact List.perm_append_comm (l₁ := [v'])
  · show (s.vars ++ [some v']).map (Option.map (items h')) = t.vars ++ [some ys]
    rw [List.map_append]
    congr 1
    · rw [← ha.vars]
      apply List.map_congr_left
      intro o ho
      cases o with
      | none => rfl
      | some w =>
        simp only [Option.map_some, Option.some.injEq]
        apply hd.frame.items
        unfold live
        rw [List.mem_filterMap]
        exact ⟨some w, ho, rfl⟩
    · simp [hd.items]
  · intro xs hxs
    rcases List.mem_append.1 hxs with hxs | hxs
    · exact ha.small xs hxs
    · simp only [List.mem_singleton, Option.some.injEq] at hxs; subst hxs; exact hys

/-- destroying a variable -/
theorem abs_drop {cfg : Cfg} {s : State α} {t} (ha : Abs cfg s t) {i} {h' : Heap α}
    (hi : Inv cfg h' (live (s.vars.set i none))) (hf : Frame s.heap h' (live (s.vars.set i none))) :
    Abs cfg { s with heap := h', vars := s.vars.set i none } { t with vars := t.vars.set i none } := by
  refine ⟨hi, ?_, ha.out, ?_⟩
  · show (s.vars.set i none).map (Option.map (items h')) = t.vars.set i none
    rw [map_frame hf, map_set, ha.vars]; rfl
  · intro xs hxs
    rcases List.mem_or_eq_of_mem_set hxs with hxs | hxs
    · exact ha.small xs hxs
    · cases hxs

theorem fit_next {xs ys : Spec.Val α} (h : Spec.fit xs = .next ys) : ys = xs ∧ xs.length + 1 < 2 ^ 31 := by
  unfold Spec.fit at h; split at h
  · simp only [Spec.R.next.injEq] at h; exact ⟨h.symm, by assumption⟩
  · cases h

theorem fit_trap {xs : Spec.Val α} : Spec.fit xs ≠ .trap := by unfold Spec.fit; split <;> simp

/-- one-variable operations -/
theorem edit_ok {cfg : Cfg} {s : State α} {t} (ha : Abs cfg s t) (i : Nat)
    (f : Heap α → Hdr α → M (Heap α × Hdr α)) (g : Spec.Val α → Spec.R (Spec.Val α))
    (hnext : ∀ v os ys, Inv cfg s.heap (v :: os) → s.vars[i]? = some (some v) → os = live (s.vars.set i none) →
      (items s.heap v).length + 1 < 2 ^ 31 → g (items s.heap v) = .next ys →
      ys.length + 1 < 2 ^ 31 ∧ Res cfg s.heap os (f s.heap v) ys)
    (htrap : ∀ v os, Inv cfg s.heap (v :: os) → (items s.heap v).length + 1 < 2 ^ 31 → g (items s.heap v) = .trap →
      f s.heap v = .error .exit ∨ f s.heap v = .error .trap) :
    Match cfg (s.upd i f) (Spec.edit t i g) := by
  unfold Spec.edit
  split
  · rename_i xs hx
    obtain ⟨v, h1, h2, h3, h4, h5, h6⟩ := abs_var ha hx
    have hu : s.upd i f = (do let (h, v) ← f s.heap v; .ok { s with heap := h, vars := s.vars.set i (some v) }) := by
      unfold State.upd; rw [h2]; rfl
    rw [← h3] at h6 ⊢
    cases hg : g (items s.heap v) with
    | next ys =>
      obtain ⟨hs, hr⟩ := hnext v _ ys h4 h1 rfl h6 hg
      rcases hr with he | ⟨h', v', he, hd⟩
      · left; rw [hu, he]; rfl
      · right; exact ⟨_, by rw [hu, he]; rfl, abs_set ha h5 hd hs⟩
    | trap =>
      rcases htrap v _ h4 h6 hg with he | he
      · left; rw [hu, he]; rfl
      · right; rw [hu, he]; rfl
    | illegal => trivial
  · trivial

theorem clampIdx_eq (n : Nat) (i : Int) : clampIdx n i = Spec.clampTo n i := by
  unfold clampIdx Spec.clampTo; split <;> (try split) <;> omega
theorem clampCnt_eq (n : Nat) (i : Int) : clampCnt n i = Spec.clampTo n i := by
  unfold clampCnt Spec.clampTo; split <;> (try split) <;> omega
theorem blank_eq (cfg : Cfg) (zero : α) (zf) : blank cfg zero zf = Spec.fresh (tyOf cfg) zero zf := rfl

theorem set_trap {cfg : Cfg} (hv : Valid cfg) {h : Heap α} {v : Hdr α} {os} (k : Int) (x : α)
    (hi : Inv cfg h (v :: os)) (hk : ¬ (0 ≤ k ∧ k < (items h v).length)) (hlt : (items h v).length + 1 < 2 ^ 31) :
    set cfg h v k x = .error .exit ∨ set cfg h v k x = .error .trap := by
  unfold set
  rcases makeUnique_ok hv hi hlt with he | ⟨h1, v1, he, hd, hn⟩
  · left; rw [he]; rfl
  · right
    have hlen1 := items_length hd.inv
    rw [hd.items] at hlen1
    rw [he]
    show (if 0 ≤ k ∧ k < v1.size then _ else _) = _
    rw [if_neg (by omega)]

/-! ### copying from another vector or from oneself -/

theorem slice_items {h : Heap α} {w : Hdr α} {cs} (hc : cellsOf h w = some cs) {a n} (hn : a + n ≤ w.size)
    : slice cs a n = ((items h w).drop a).take n := by
  unfold slice items
  rw [hc]
  simp only [Option.getD_some]
  rw [List.drop_take, List.take_take]
  congr 1; omega

/-- facts about the source offset -/
theorem srcOff_le {cfg : Cfg} {h : Heap α} {v w : Hdr α} {same a adj off} (hv : Shape cfg h v) (hw : Shape cfg h w)
    (ha : a ≤ w.size) (hs : srcOff cfg v w same a adj = some off) (h0 : off = 0) (hle : off ≤ v.size) :
    (a = 0 ∧ ((cellsOf h v = cellsOf h w ∧ ∃ b, owns b v = true ∧ owns b w = true) ∨ same = true)) ∨ (v.size = 0 ∧ w.size = 0) := by
  subst h0
  unfold srcOff at hs
  simp only at hs
  cases v with
  | small n cs =>
    cases w with
    | small n' cs' =>
      simp only at hs
      split at hs
      · cases hs; rename_i hsame; exact Or.inl ⟨rfl, Or.inr hsame⟩
      · split at hs
        · rename_i h0
          right
          exact ⟨by have := hv.2; simp only [Hdr.size]; omega, by have := hw.2; simp only [Hdr.size]; omega⟩
        · split at hs
          · rename_i hc
            simp only [Option.some.injEq] at hs
            simp only [Bool.and_eq_true, decide_eq_true_eq] at hc
            omega
          · cases hs
    | big b' n' c' s' =>
      simp only at hs
      split at hs
      · rename_i hc
        simp only [Option.some.injEq] at hs
        simp only [Bool.and_eq_true, decide_eq_true_eq] at hc
        omega
      · cases hs
  | big b n c s =>
    cases w with
    | small n' cs' =>
      simp only at hs
      split at hs
      · rename_i hc
        simp only [Option.some.injEq] at hs
        simp only [Bool.and_eq_true, decide_eq_true_eq] at hc
        omega
      · cases hs
    | big b' n' c' s' =>
      simp only at hs
      split at hs
      · rename_i hb; subst hb; cases hs
        exact Or.inl ⟨rfl, Or.inl ⟨rfl, b, by simp [owns], by simp [owns]⟩⟩
      · split at hs
        · rename_i hc
          simp only [Option.some.injEq] at hs
          simp only [Bool.and_eq_true, decide_eq_true_eq] at hc
          omega
        · cases hs

/-- headers pointing at the same slots show prefixes of the same list -/
theorem prefix_of_cells {h : Heap α} {v w : Hdr α} (hs : cellsOf h v = cellsOf h w) :
    items h v <+: items h w ∨ items h w <+: items h v := by
  unfold items
  rw [hs]
  rcases Nat.le_total v.size w.size with h | h
  · exact Or.inl (List.take_prefix_take_left h)
  · exact Or.inr (List.take_prefix_take_left h)

/-- the plain path of `splice_copy`, source in another variable -/
theorem plain_splice_ok {cfg : Cfg} (hv : Valid cfg) {h : Heap α} {v w : Hdr α} {os} {a n : Nat} {idx del : Int}
    (hi : Inv cfg h (v :: w :: os)) (hI : 0 ≤ idx ∧ idx ≤ v.size) (ha : a + n ≤ w.size)
    (hlt : (Spec.spliceAt (items h v) idx.toNat (Spec.clampTo ((items h v).length - idx.toNat) del)
      (((items h w).drop a).take n)).length + 1 < 2 ^ 31) :
    Res cfg h (w :: os) (do
      let (h, v, null) ← spliceRaw cfg .normal h v idx del n 0 0
      let scs ← loadCells h w
      construct cfg h v null idx (slice scs a n))
      (Spec.spliceAt (items h v) idx.toNat (Spec.clampTo ((items h v).length - idx.toNat) del) (((items h w).drop a).take n)) := by
  have hlen := items_length hi
  have hlenW := items_length (inv_swap hi)
  obtain ⟨wcs, hwc, _, _⟩ := loadCells_ok (hi.1.shape w (by simp))
  have hsl := slice_items hwc ha
  have hcI : idx.toNat = clampIdx v.size idx := by unfold clampIdx; split <;> (try split) <;> omega
  rw [← clampCnt_eq, hlen] at hlt ⊢
  generalize hD : clampCnt (v.size - idx.toNat) del = d at hlt ⊢
  have hd' : d ≤ v.size - idx.toNat := hD ▸ clampCnt_le _ _
  have hxl : (((items h w).drop a).take n).length = n := by simp; omega
  have hlt' : (items h v).length - d - 0 + n + 0 + 1 < 2 ^ 31 := by
    unfold Spec.spliceAt at hlt; simp only [List.length_append, List.length_take, List.length_drop] at hlt; omega
  rcases spliceRaw_ok hv hi (kind := .normal) (by simp) idx del n 0 0 (p := 0) (n := n) (m := 0)
    hcI hD.symm (by simp [clampCnt]) (by simp only [posPart]; split <;> omega) rfl hlt' with he | ⟨h', v', null, he, ho⟩
  · left; rw [he]; rfl
  · right
    have hfr : Frame h h' (w :: os) := by
      rcases ho with ⟨_, ho⟩ | ⟨_, _, _, _, ho⟩
      · exact ho.frame
      · exact ho.frame
    rw [← hxl] at ho
    obtain ⟨h2, v2, e, o⟩ := fill_ok (xs := ((items h w).drop a).take n) hi ho
      (fun ht => ⟨allSome_take (items_some hi ht), allSome_take (allSome_drop (items_some hi ht))⟩)
      (fun ht => allSome_take (allSome_drop (items_some (inv_swap hi) ht)))
    refine ⟨h2, v2, ?_, ?_⟩
    · have hlw : loadCells h' w = .ok wcs := by unfold loadCells; rw [hfr w (by simp), hwc]
      rw [he]
      show (do let scs ← loadCells h' w; construct cfg h' v' null idx (slice scs a n)) = _
      rw [hlw]
      show construct cfg h' v' null idx (slice wcs a n) = _
      rw [hsl, ← e]
      congr 1
      simp only [List.length_take, hlen]
      omega
    · rw [List.take_of_length_le (l := (items h v).drop (idx.toNat + d)) (by simp [hlen]; omega)] at o
      exact o

theorem plain_append_ok {cfg : Cfg} (hv : Valid cfg) {h : Heap α} {v w : Hdr α} {os} {a n : Nat} {del : Int}
    (hi : Inv cfg h (v :: w :: os)) (hD : 0 ≤ del ∧ del ≤ v.size) (ha : a + n ≤ w.size)
    (hlt : (items h v).length - del.toNat + n + 1 < 2 ^ 31) :
    Res cfg h (w :: os) (do
      let (h, v', null) ← spliceRaw cfg .normal h v 0 0 0 del n
      let scs ← loadCells h w
      construct cfg h v' null (v.size - del) (slice scs a n))
      ((items h v).take ((items h v).length - del.toNat) ++ ((items h w).drop a).take n) := by
  have hlen := items_length hi
  have hlenW := items_length (inv_swap hi)
  obtain ⟨wcs, hwc, _, _⟩ := loadCells_ok (hi.1.shape w (by simp))
  have hsl := slice_items hwc ha
  have hxl : (((items h w).drop a).take n).length = n := by simp; omega
  have hp : del.toNat = clampCnt (v.size - 0 - 0) del := by unfold clampCnt; split <;> (try split) <;> omega
  rcases spliceRaw_ok hv hi (kind := .normal) (by simp) 0 0 0 del n (i := 0) (d := 0) (n := 0) (m := n)
    (by simp [clampIdx]) (by simp [clampCnt]) hp rfl (by simp only [posPart]; split <;> omega) (by omega)
    with he | ⟨h', v', null, he, ho⟩
  · left; rw [he]; rfl
  · right
    have e0 : (items h v).take 0 ++ ((items h v).drop (0 + 0)).take (v.size - 0 - 0 - del.toNat)
        = (items h v).take (v.size - del.toNat) := by simp
    have hfr : Frame h h' (w :: os) := by
      rcases ho with ⟨_, ho⟩ | ⟨_, _, _, _, ho⟩
      · exact ho.frame
      · exact ho.frame
    have ho' : (null = false ∧ Opened cfg h (w :: os) h' v' ((items h v).take (v.size - del.toNat)) []
          (((items h w).drop a).take n).length 0) ∨
       (null = true ∧ Kind.normal = .normal ∧ (((items h w).drop a).take n).length = 0 ∧ 0 = 0 ∧
         Done cfg h (w :: os) h' v' ((items h v).take (v.size - del.toNat) ++ [])) := by
      rw [hxl]
      rcases ho with ⟨a, ho⟩ | ⟨a, b, c, d, ho⟩
      · exact Or.inl ⟨a, by rw [← e0]; exact opened_push_eq ho⟩
      · exact Or.inr ⟨a, b, d, rfl, by rw [← e0, List.append_nil]; exact ho⟩
    obtain ⟨h2, v2, e, o⟩ := fill_ok hi ho' (fun ht => ⟨allSome_take (items_some hi ht), rfl⟩)
      (fun ht => allSome_take (allSome_drop (items_some (inv_swap hi) ht)))
    refine ⟨h2, v2, ?_, ?_⟩
    · have hlw : loadCells h' w = .ok wcs := by unfold loadCells; rw [hfr w (by simp), hwc]
      rw [he]
      show (do let scs ← loadCells h' w; construct cfg h' v' null (v.size - del) (slice scs a n)) = _
      rw [hlw]
      show construct cfg h' v' null (v.size - del) (slice wcs a n) = _
      rw [hsl, ← e]
      congr 1
      simp only [List.length_take, hlen]
      omega
    · rw [hlen]; simpa using o

theorem Res.perm {cfg : Cfg} {h : Heap α} {os os'} {r : M (Heap α × Hdr α)} {xs} (p : os.Perm os') (hr : Res cfg h os r xs) :
    Res cfg h os' r xs := by
  rcases hr with he | ⟨h', v', he, hd⟩
  · exact Or.inl he
  · exact Or.inr ⟨h', v', he, hd.inv.perm (p.cons _), fun o ho => hd.frame o (p.symm.subset ho), hd.items⟩

/-- `splice_copy` from another variable -/
theorem spliceCopy_other_ok {cfg : Cfg} (hv : Valid cfg) {h : Heap α} {v w : Hdr α} {os} {a n : Nat} {adj} {idx del : Int}
    (hi : Inv cfg h (v :: w :: os)) (hI : 0 ≤ idx ∧ idx ≤ v.size) (ha : a + n ≤ w.size) (hw : w.size + 1 < 2 ^ 31)
    (hno : ¬ (idx = 0 ∧ del = v.size ∧ a = 0 ∧ n ≠ v.size ∧ Spec.Agree (items h v) (items h w)))
    (hz : ∀ b, owns b v = true → owns b w = true → (v.size = 0 ↔ w.size = 0))
    (hlt : (Spec.spliceAt (items h v) idx.toNat (Spec.clampTo ((items h v).length - idx.toNat) del)
      (((items h w).drop a).take n)).length + 1 < 2 ^ 31) :
    Res cfg h (w :: os) (spliceCopy cfg h v w false a n adj idx del)
      (Spec.spliceAt (items h v) idx.toNat (Spec.clampTo ((items h v).length - idx.toNat) del) (((items h w).drop a).take n)) := by
  have hlen := items_length hi
  have hlenW := items_length (inv_swap hi)
  have hplain := plain_splice_ok hv hi hI ha hlt
  obtain ⟨wcs, hwc, hwl, _⟩ := loadCells_ok (hi.1.shape w (by simp))
  have hsl := slice_items hwc ha
  have hxl : (((items h w).drop a).take n).length = n := by simp; omega
  unfold spliceCopy
  simp only
  split
  · exact hplain
  · rename_i off hoff
    split
    · exact hplain
    · rename_i hle
      split
      · rename_i hc
        have := selfSplice_ok hv idx del (d := clampCnt (v.size - idx.toNat) del) (((items h w).drop a).take n) hi hI rfl
          (fun ht => allSome_take (allSome_drop (items_some (inv_swap hi) ht))) (by omega) (by
            have hcl := clampCnt_le (v.size - idx.toNat) del
            unfold Spec.spliceAt at hlt; rw [← clampCnt_eq, hlen] at hlt
            simp only [List.length_append, List.length_take, List.length_drop] at hlt ⊢; omega)
        rw [hwl]
        show Res cfg h (w :: os) (selfSplice cfg h v idx del (slice wcs a n)) _
        rw [hsl, ← clampCnt_eq, hlen]
        exact this
      · rename_i hc
        have hc' : idx = 0 ∧ del = v.size ∧ off = 0 := by omega
        obtain ⟨rfl, rfl, rfl⟩ := hc'
        right
        refine ⟨h, v, rfl, hi, Frame.refl _ _, ?_⟩
        have hcl : Spec.clampTo ((items h v).length - (0 : Int).toNat) (v.size : Int) = v.size := by
          rw [hlen]; unfold Spec.clampTo; simp
        rw [hcl]
        unfold Spec.spliceAt
        simp only [Int.toNat_zero, List.take_zero, List.nil_append, Nat.zero_add]
        rw [← hlen, List.drop_length, List.append_nil]
        rcases srcOff_le (hi.1.shape v (by simp)) (hi.1.shape w (by simp)) (by omega) hoff rfl (by omega) with ⟨rfl, hs⟩ | ⟨h1, h2⟩
        · rcases hs with hs | hs
          · obtain ⟨hs, b, hb1, hb2⟩ := hs
            have hn : n = v.size := by
              rcases Classical.em (n = v.size) with h | h
              · exact h
              · refine absurd ⟨rfl, rfl, rfl, h, ?_, prefix_of_cells hs⟩ hno
                intro h0
                have hv0 : v.size = 0 := by rw [← hlen, h0]; rfl
                have := (hz b hb1 hb2).1 hv0
                omega
            subst hn
            unfold items
            rw [hs]
            simp [List.take_take]; omega
          · cases hs
        · have e1 : items h v = [] := List.length_eq_zero_iff.1 (by omega)
          have e2 : items h w = [] := List.length_eq_zero_iff.1 (by omega)
          rw [e1, e2]; simp

/-- `splice_copy` from oneself -/
theorem spliceCopy_self_ok {cfg : Cfg} (hv : Valid cfg) {h : Heap α} {v : Hdr α} {os} {a n : Nat} {adj} {idx del : Int}
    (hi : Inv cfg h (v :: os)) (hI : 0 ≤ idx ∧ idx ≤ v.size) (ha : a + n ≤ v.size) (_hw : v.size + 1 < 2 ^ 31)
    (hno : ¬ (idx = 0 ∧ del = v.size ∧ a = 0 ∧ n ≠ v.size))
    (hlt : (Spec.spliceAt (items h v) idx.toNat (Spec.clampTo ((items h v).length - idx.toNat) del)
      (((items h v).drop a).take n)).length + 1 < 2 ^ 31) :
    Res cfg h os (spliceCopy cfg h v v true a n adj idx del)
      (Spec.spliceAt (items h v) idx.toNat (Spec.clampTo ((items h v).length - idx.toNat) del) (((items h v).drop a).take n)) := by
  have hlen := items_length hi
  obtain ⟨wcs, hwc, hwl, _⟩ := loadCells_ok (hi.1.shape v (by simp))
  have hsl := slice_items hwc ha
  have hxl : (((items h v).drop a).take n).length = n := by simp; omega
  have hoff : srcOff cfg v v true a adj = some a := by
    unfold srcOff; cases v <;> simp
  unfold spliceCopy
  simp only
  rw [hoff]
  simp only
  rw [if_neg (by omega)]
  split
  · have := selfSplice_ok hv idx del (d := clampCnt (v.size - idx.toNat) del) (((items h v).drop a).take n) hi hI rfl
      (fun ht => allSome_take (allSome_drop (items_some hi ht))) (by omega) (by
        have hcl := clampCnt_le (v.size - idx.toNat) del
        unfold Spec.spliceAt at hlt; rw [← clampCnt_eq, hlen] at hlt
        simp only [List.length_append, List.length_take, List.length_drop] at hlt ⊢; omega)
    rw [hwl]
    show Res cfg h os (selfSplice cfg h v idx del (slice wcs a n)) _
    rw [hsl, ← clampCnt_eq, hlen]
    exact this
  · rename_i hc
    have hc' : idx = 0 ∧ del = v.size ∧ a = 0 := by omega
    obtain ⟨rfl, rfl, rfl⟩ := hc'
    right
    refine ⟨h, v, rfl, hi, Frame.refl _ _, ?_⟩
    have hcl : Spec.clampTo ((items h v).length - (0 : Int).toNat) (v.size : Int) = v.size := by
      rw [hlen]; unfold Spec.clampTo; simp
    rw [hcl]
    unfold Spec.spliceAt
    simp only [Int.toNat_zero, List.take_zero, List.nil_append, Nat.zero_add, List.drop_zero]
    have hn : n = v.size := by
      rcases Classical.em (n = v.size) with h | h
      · exact h
      · exact absurd ⟨rfl, rfl, rfl, h⟩ hno
    subst hn
    rw [← hlen, List.drop_length, List.append_nil, List.take_length]

/-- appending is splicing at the end -/
theorem append_as_splice {h : Heap α} {v : Hdr α} {del : Int} {ys : Spec.Val α} (hlen : (items h v).length = v.size)
    (hD : 0 ≤ del ∧ del ≤ v.size) :
    (items h v).take ((v.size : Int) - del).toNat ++ ys ++ (items h v).drop (((v.size : Int) - del).toNat +
      clampCnt (v.size - ((v.size : Int) - del).toNat) del) = (items h v).take ((items h v).length - del.toNat) ++ ys := by
  have h1 : ((v.size : Int) - del).toNat = (items h v).length - del.toNat := by omega
  have h2 : clampCnt (v.size - ((v.size : Int) - del).toNat) del = del.toNat := by
    unfold clampCnt; split <;> (try split) <;> omega
  rw [h2, h1, List.drop_eq_nil_of_le (by omega), List.append_nil]

theorem appendCopy_other_ok {cfg : Cfg} (hv : Valid cfg) {h : Heap α} {v w : Hdr α} {os} {a n : Nat} {adj} {del : Int}
    (hi : Inv cfg h (v :: w :: os)) (hD : 0 ≤ del ∧ del ≤ v.size) (ha : a + n ≤ w.size) (_hw : w.size + 1 < 2 ^ 31)
    (hno : ¬ (del = v.size ∧ a = 0 ∧ n ≠ v.size ∧ Spec.Agree (items h v) (items h w)))
    (hz : ∀ b, owns b v = true → owns b w = true → (v.size = 0 ↔ w.size = 0))
    (hlt : (items h v).length - del.toNat + n + 1 < 2 ^ 31) :
    Res cfg h (w :: os) (appendCopy cfg h v w false a n adj del)
      ((items h v).take ((items h v).length - del.toNat) ++ ((items h w).drop a).take n) := by
  have hlen := items_length hi
  have hlenW := items_length (inv_swap hi)
  have hplain := plain_append_ok hv hi hD ha hlt
  obtain ⟨wcs, hwc, hwl, _⟩ := loadCells_ok (hi.1.shape w (by simp))
  have hsl := slice_items hwc ha
  have hxl : (((items h w).drop a).take n).length = n := by simp; omega
  unfold appendCopy
  simp only
  split
  · exact hplain
  · rename_i off hoff
    split
    · exact hplain
    · rename_i hle
      split
      · rename_i hc
        have hcd : clampCnt (v.size - ((v.size : Int) - del).toNat) del = del.toNat := by
          unfold clampCnt; split <;> (try split) <;> omega
        have := selfSplice_ok hv (v.size - del) del (d := clampCnt (v.size - ((v.size : Int) - del).toNat) del)
          (((items h w).drop a).take n) hi (by omega) rfl
          (fun ht => allSome_take (allSome_drop (items_some (inv_swap hi) ht))) (by omega) (by rw [hcd]; omega)
        rw [append_as_splice hlen hD] at this
        rw [hwl]
        show Res cfg h (w :: os) (selfSplice cfg h v (v.size - del) del (slice wcs a n)) _
        rw [hsl]
        exact this
      · rename_i hc
        have hc' : del = v.size ∧ off = 0 := by omega
        obtain ⟨rfl, rfl⟩ := hc'
        right
        refine ⟨h, v, rfl, hi, Frame.refl _ _, ?_⟩
        rw [Int.toNat_natCast, hlen, Nat.sub_self, List.take_zero, List.nil_append]
        rcases srcOff_le (hi.1.shape v (by simp)) (hi.1.shape w (by simp)) (by omega) hoff rfl (by omega) with ⟨rfl, hs⟩ | ⟨h1, h2⟩
        · rcases hs with hs | hs
          · obtain ⟨hs, b, hb1, hb2⟩ := hs
            have hn : n = v.size := by
              rcases Classical.em (n = v.size) with h | h
              · exact h
              · refine absurd ⟨rfl, rfl, h, ?_, prefix_of_cells hs⟩ hno
                intro h0
                have hv0 : v.size = 0 := by rw [← hlen, h0]; rfl
                have := (hz b hb1 hb2).1 hv0
                omega
            subst hn
            unfold items
            rw [hs]
            simp [List.take_take]; omega
          · cases hs
        · have e1 : items h v = [] := List.length_eq_zero_iff.1 (by omega)
          have e2 : items h w = [] := List.length_eq_zero_iff.1 (by omega)
          rw [e1, e2]; simp

theorem appendCopy_self_ok {cfg : Cfg} (hv : Valid cfg) {h : Heap α} {v : Hdr α} {os} {a n : Nat} {adj} {del : Int}
    (hi : Inv cfg h (v :: os)) (hD : 0 ≤ del ∧ del ≤ v.size) (ha : a + n ≤ v.size) (_hw : v.size + 1 < 2 ^ 31)
    (hno : ¬ (del = v.size ∧ a = 0 ∧ n ≠ v.size)) (hlt : (items h v).length - del.toNat + n + 1 < 2 ^ 31) :
    Res cfg h os (appendCopy cfg h v v true a n adj del)
      ((items h v).take ((items h v).length - del.toNat) ++ ((items h v).drop a).take n) := by
  have hlen := items_length hi
  obtain ⟨wcs, hwc, hwl, _⟩ := loadCells_ok (hi.1.shape v (by simp))
  have hsl := slice_items hwc ha
  have hxl : (((items h v).drop a).take n).length = n := by simp; omega
  have hoff : srcOff cfg v v true a adj = some a := by
    unfold srcOff; cases v <;> simp
  unfold appendCopy
  simp only
  rw [hoff]
  simp only
  rw [if_neg (by omega)]
  split
  · have hcd : clampCnt (v.size - ((v.size : Int) - del).toNat) del = del.toNat := by
      unfold clampCnt; split <;> (try split) <;> omega
    have := selfSplice_ok hv (v.size - del) del (d := clampCnt (v.size - ((v.size : Int) - del).toNat) del)
      (((items h v).drop a).take n) hi (by omega) rfl
      (fun ht => allSome_take (allSome_drop (items_some hi ht))) (by omega) (by rw [hcd]; omega)
    rw [append_as_splice hlen hD] at this
    rw [hwl]
    show Res cfg h os (selfSplice cfg h v (v.size - del) del (slice wcs a n)) _
    rw [hsl]
    exact this
  · rename_i hc
    have hc' : del = v.size ∧ a = 0 := by omega
    obtain ⟨rfl, rfl⟩ := hc'
    right
    refine ⟨h, v, rfl, hi, Frame.refl _ _, ?_⟩
    have hn : n = v.size := by
      rcases Classical.em (n = v.size) with h | h
      · exact h
      · exact absurd ⟨rfl, rfl, h⟩ hno
    subst hn
    rw [Int.toNat_natCast, hlen, Nat.sub_self, List.take_zero, List.nil_append, List.drop_zero, ← hlen, List.take_length]

/-! ### two variables -/

/-- replacing one variable and adding one -/
theorem abs_setadd {cfg : Cfg} {s : State α} {t} (ha : Abs cfg s t) {j} (hlt : j < s.vars.length) {h' : Heap α} {v1 v2 : Hdr α}
    {xs ys} (hinv : Inv cfg h' (v2 :: v1 :: live (s.vars.set j none))) (hf : Frame s.heap h' (live (s.vars.set j none)))
    (h1 : items h' v1 = xs) (h2 : items h' v2 = ys) (hxs : xs.length + 1 < 2 ^ 31) (hys : ys.length + 1 < 2 ^ 31) :
    Abs cfg { s with heap := h', vars := s.vars.set j (some v1) ++ [some v2] }
      { t with vars := t.vars.set j (some xs) ++ [some ys] } := by
  refine ⟨hinv.perm ?_, ?_, ha.out, ?_⟩
  · have hp := (live_set hlt (some v1)).cons v2
    refine hp.symm.trans ?_
    unfold live
    simp only [List.filterMap_append, List.filterMap_cons, List.filterMap_nil, id]
    exact List.perm_append_comm (l₁ := [v2])
  · show (s.vars.set j (some v1) ++ [some v2]).map (Option.map (items h')) = t.vars.set j (some xs) ++ [some ys]
    rw [List.map_append, show s.vars.set j (some v1) = (s.vars.set j none).set j (some v1) by rw [List.set_set], map_set,
      map_frame hf, map_set, List.set_set, ha.vars]
    simp [h1, h2]
  · intro z hz
    rcases List.mem_append.1 hz with hz | hz
    · rcases List.mem_or_eq_of_mem_set hz with hz | hz
      · exact ha.small z hz
      · cases hz; exact hxs
    · simp only [List.mem_singleton, Option.some.injEq] at hz; subst hz; exact hys

theorem set_same {t : List (Option (Spec.Val α))} {j xs} (hx : t[j]? = some (some xs)) : t.set j (some xs) = t := by
  obtain ⟨hl, he⟩ := List.getElem?_eq_some_iff.1 hx
  rw [← he]; exact List.set_getElem_self hl

theorem live_two {vars : List (Option (Hdr α))} {i j} (hne : i ≠ j) (hi : i < vars.length) (hj : j < vars.length)
    (x y : Option (Hdr α)) :
    (live ((vars.set j y).set i x)).Perm (live [x] ++ (live [y] ++ live ((vars.set j none).set i none))) := by
  refine (live_set (by simpa using hi) x).trans (List.Perm.append_left _ ?_)
  have e2 : (vars.set j none).set i none = (vars.set i none).set j none := List.set_comm _ _ (Ne.symm hne)
  rw [List.set_comm _ _ (Ne.symm hne), e2]
  exact live_set (by simpa using hj) y

theorem abs_var2 {cfg : Cfg} {s : State α} {t} (ha : Abs cfg s t) {i j xs ys} (hne : i ≠ j)
    (hi : t.vars[i]? = some (some xs)) (hj : t.vars[j]? = some (some ys)) :
    ∃ v w, s.var i = .ok v ∧ s.var j = .ok w ∧ items s.heap v = xs ∧ items s.heap w = ys ∧
      Inv cfg s.heap (v :: w :: live ((s.vars.set j none).set i none)) ∧ i < s.vars.length ∧ j < s.vars.length ∧
      (v :: live (s.vars.set i none)).Perm (v :: w :: live ((s.vars.set j none).set i none)) ∧
      xs.length + 1 < 2 ^ 31 ∧ ys.length + 1 < 2 ^ 31 := by
  obtain ⟨v, h1, h2, h3, h4, h5, h6⟩ := abs_var ha hi
  obtain ⟨w, g1, g2, g3, g4, g5, g6⟩ := abs_var ha hj
  have hp : (live (s.vars.set i none)).Perm (w :: live ((s.vars.set j none).set i none)) := by
    have : (s.vars.set i none)[j]? = some (some w) := by rw [List.getElem?_set_ne hne]; exact g1
    have := live_get this
    rwa [List.set_comm _ _ hne] at this
  exact ⟨v, w, h2, g2, h3, g3, h4.perm (hp.cons _), h5, g5, hp.cons _, h6, g6⟩

theorem map_frame2 {h h' : Heap α} {vars : List (Option (Hdr α))} (hf : Frame h h' (live vars)) :
    vars.map (Option.map (items h')) = vars.map (Option.map (items h)) := by
  apply List.map_congr_left
  intro o ho
  cases o with
  | none => rfl
  | some w =>
    simp only [Option.map_some, Option.some.injEq]
    apply hf.items
    unfold live
    rw [List.mem_filterMap]
    exact ⟨some w, ho, rfl⟩

/-- replacing two variables -/
theorem abs_set2 {cfg : Cfg} {s : State α} {t} (ha : Abs cfg s t) {i j} (hne : i ≠ j) (hi : i < s.vars.length)
    (hj : j < s.vars.length) {h' : Heap α} {v' : Hdr α} {w' : Option (Hdr α)} {xs} {ys : Option (Spec.Val α)}
    (hinv : Inv cfg h' (v' :: (live [w'] ++ live ((s.vars.set j none).set i none))))
    (hf : Frame s.heap h' (live ((s.vars.set j none).set i none)))
    (hx : items h' v' = xs) (hy : w'.map (items h') = ys)
    (hxs : xs.length + 1 < 2 ^ 31) (hys : ∀ y, ys = some y → y.length + 1 < 2 ^ 31) :
    Abs cfg { s with heap := h', vars := (s.vars.set j w').set i (some v') }
      { t with vars := (t.vars.set j ys).set i (some xs) } := by
  refine ⟨hinv.perm (live_two hne hi hj (some v') w').symm, ?_, ha.out, ?_⟩
  · show ((s.vars.set j w').set i (some v')).map (Option.map (items h')) = (t.vars.set j ys).set i (some xs)
    have e : (s.vars.set j w').set i (some v') = (((s.vars.set j none).set i none).set j w').set i (some v') := by
      rw [List.set_comm _ _ hne, List.set_set, List.set_set]
    rw [e, map_set, map_set, map_frame2 hf, map_set, map_set, ha.vars, List.set_comm _ _ hne, List.set_set, List.set_set, hy]
    simp [hx]
  · intro z hz
    rcases List.mem_or_eq_of_mem_set hz with hz | hz
    · rcases List.mem_or_eq_of_mem_set hz with hz | hz
      · exact ha.small z hz
      · exact hys z hz.symm
    · cases hz; exact hxs

end Verif.Vec
