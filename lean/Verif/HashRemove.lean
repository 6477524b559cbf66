import Verif.HashInsert
/-!
# Removal
-/
namespace Verif.Hash
variable {K V : Type} [DecidableEq K]

omit [DecidableEq K] in
theorem posOf_core {d d' : List (DEnt K V)} (h : d'.map core = d.map core) (g x : Nat) : PosOf d' g x ↔ PosOf d g x := by
  have key : ∀ dd : List (DEnt K V), (∃ e, dd[x - 1]? = some e ∧ e.hash = g) ↔
      ((dd.map core)[x - 1]?).map (fun c => c.2.2) = some g := by
    intro dd
    rw [List.getElem?_map, Option.map_map, Option.map_eq_some_iff]
    rfl
  unfold PosOf
  rw [key, key, h]

omit [DecidableEq K] in
theorem core_set {d : List (DEnt K V)} {x : Nat} {e : DEnt K V} (he : d[x]? = some e) (c : Nat) :
    (d.set x { e with coll := c }).map core = d.map core := by
  rw [List.map_set]
  apply List.ext_getElem?
  intro n
  rw [List.getElem?_set]
  have hx := (List.getElem?_eq_some_iff.mp he).1
  split_ifs with h1 h2
  · subst h1; simp [he, core]
  · subst h1; simp at h2; omega
  · rfl

omit [DecidableEq K] in
theorem cl_set {d : List (DEnt K V)} {x : Nat} {e : DEnt K V} (he : d[x - 1]? = some e) (c y : Nat) (hx : x ≠ 0)
    (hy : y ≠ 0) : cl (d.set (x - 1) { e with coll := c }) y = if y = x then some c else cl d y := by
  unfold cl
  have hl := (List.getElem?_eq_some_iff.mp he).1
  rw [List.getElem?_set]
  by_cases h : y = x
  · subst h; rw [if_pos rfl, if_pos rfl, if_pos hl]; rfl
  · rw [if_neg (by omega), if_neg h]

/-- `swap`, on any list. -/
theorem swap_ok' {α : Type} {l : List α} {i j : Nat} {x y : α} (hi : l[i]? = some x) (hj : l[j]? = some y) :
    swap l i j = .ok ((l.set i y).set j x) := by
  have h1 := (List.getElem?_eq_some_iff.mp hi).1
  have h2 := (List.getElem?_eq_some_iff.mp hj).1
  unfold swap rd
  rw [hi, hj]
  simp only [bind, Except.bind]
  rw [wr_ok h1]
  simp only
  rw [wr_ok (by simpa using h2)]

omit [DecidableEq K] in
/-- Taking an entry out of its bucket. -/
theorem WF.unlink {hf : K → Nat} {m : Map K V} (w : WF hf m) {ch : Nat → List Nat}
    (l : Linked m.index m.data 0 ch) {i x : Nat} {e : DEnt K V} {A B : List Nat} (he : m.data[x - 1]? = some e)
    (hi : i < m.index.length) (oi : Occ m.index i) (eh : (at' m.index i).hash = e.hash)
    (eA : ch e.hash = A ++ x :: B) :
    ∃ m1, unlink m i x (A.getLast?.getD 0) = .ok m1 ∧ RH m1.index ∧ Uniq m1.index ∧
      m1.index.length = m.index.length ∧ m1.data.map core = m.data.map core ∧
      ∃ ch1, Linked m1.index m1.data x ch1 := by
  have hx : x ≠ 0 := ((l.mem e.hash x).mp (by rw [eA]; simp)).1
  have nd := l.nodup e.hash
  rw [eA] at nd
  have ndx : x ∉ A ∧ x ∉ B := by
    have := List.nodup_append.mp nd
    refine ⟨fun h => this.2.2 x h x (by simp) rfl, (List.nodup_cons.mp this.2.1).1⟩
  have nd1 : (A ++ B).Nodup := by
    have h1 := List.nodup_append.mp nd
    refine List.nodup_append.mpr ⟨h1.1, (List.nodup_cons.mp h1.2.1).2, fun a ha b hb => h1.2.2 a ha b (by simp [hb])⟩
  have hseg := l.head i hi oi
  rw [eh, eA, seg_append] at hseg
  obtain ⟨a, s1, rfl, _, c, hc, s2⟩ := hseg
  have ec : e.coll = c := by
    unfold cl at hc; rw [he] at hc; simpa using hc
  have uq := (uniq_iff _).mp w.uq
  -- membership in the new buckets
  have memNew : ∀ h x', x' ∈ (if h = e.hash then A ++ B else ch h) ↔ x' ≠ a ∧ PosOf m.data h x' := by
    intro h x'
    split_ifs with ch'
    · subst ch'
      have := l.mem e.hash x'
      rw [eA] at this
      constructor
      · intro hm
        refine ⟨?_, (this.mp ?_).2⟩
        · rintro rfl
          rcases List.mem_append.mp hm with h1 | h1
          · exact ndx.1 h1
          · exact ndx.2 h1
        · simp only [List.mem_append, List.mem_cons] at hm ⊢
          rcases hm with h1 | h1
          · exact Or.inl h1
          · exact Or.inr (Or.inr h1)
      · rintro ⟨h1, h2⟩
        have hm := this.mpr ⟨h2.1, h2⟩
        simp only [List.mem_append, List.mem_cons] at hm ⊢
        rcases hm with h3 | h3 | h3
        · exact Or.inl h3
        · exact absurd h3 h1
        · exact Or.inr h3
    · rw [l.mem]
      constructor
      · rintro ⟨h1, h2⟩
        refine ⟨?_, h2⟩
        rintro rfl
        obtain ⟨_, e', he', hh⟩ := h2
        rw [he] at he'
        cases he'
        exact ch' hh.symm
      · rintro ⟨_, h2⟩
        exact ⟨h2.1, h2⟩
  have nodNew : ∀ h, (if h = e.hash then A ++ B else ch h).Nodup := by
    intro h; split_ifs
    · exact nd1
    · exact l.nodup h
  have hde : dat m.data a = .ok e := dat_ok hx he
  unfold Verif.Hash.unlink
  rw [hde]
  simp only [bind, Except.bind]
  rcases List.eq_nil_or_concat A with rfl | ⟨A', c', rfl⟩
  · -- the head of the bucket
    have hpos : (at' m.index i).pos = a := s1
    simp only [List.getLast?_nil, Option.getD_none, ne_eq, not_true_eq_false, if_false]
    rw [rd_at hi]
    simp only
    rw [wr_ok hi]
    simp only
    have ha := at_set hi ({ at' m.index i with pos := e.coll })
    by_cases z : e.coll = 0
    · -- the slot is freed
      rw [if_pos z]
      have hB : B = [] := by
        cases B with
        | nil => rfl
        | cons b B =>
          obtain ⟨h1, h2, _⟩ := s2
          exact absurd (by rw [← ec] at h1; exact h1 ▸ z) h2
      subst hB
      have nf : ¬ Occ (m.index.set i { at' m.index i with pos := e.coll }) i := by
        unfold Occ; rw [ha, if_pos rfl]; exact fun h => h z
      have hb := Phi_le (m.index.set i { at' m.index i with pos := e.coll })
      obtain ⟨idx', e', pm, _⟩ := compact_total
        ((m.index.set i { at' m.index i with pos := e.coll }).length *
          (m.index.set i { at' m.index i with pos := e.coll }).length + 1)
        (m.index.set i { at' m.index i with pos := e.coll }) i (by simpa using hi) nf (by omega)
      rw [e']
      have memI : ∀ e2 : IEnt, e2.pos ≠ 0 → (e2 ∈ idx' ↔ e2 ∈ m.index ∧ e2.hash ≠ e.hash) := by
        intro e2 h2
        rw [pm.mem_iff]
        constructor
        · intro hm
          obtain ⟨q, hq, eq'⟩ := mem_at hm
          simp only [List.length_set] at hq
          rw [ha] at eq'
          split_ifs at eq' with c1
          · exfalso; rw [← eq'] at h2; exact h2 z
          · rw [← eq']
            refine ⟨at_mem hq, fun h3 => c1 (uq q hq i hi ?_ oi (by rw [h3, eh]))⟩
            unfold Occ; rw [eq']; exact h2
        · rintro ⟨h3, h4⟩
          obtain ⟨q, hq, eq'⟩ := mem_at h3
          have c1 : q ≠ i := by
            rintro rfl; exact h4 (by rw [← eq', eh])
          have : at' (m.index.set i { at' m.index i with pos := e.coll }) q = _ := (ha q).trans (if_neg c1)
          rw [eq'] at this
          rw [← this]
          exact at_mem (by simpa using hq)
      refine ⟨_, rfl, ?_, ?_, ?_, rfl, fun h => if h = e.hash then [] else ch h, ?_⟩
      · exact compact_rh _ _ i _ (by simpa using hi) nf (w.rh.hole hi oi _ z) e'
      · show Uniq idx'
        rw [uniq_perm pm]
        refine uniq_congr w.uq (by simp) ?_
        intro p _ op
        have p1 : p ≠ i := by rintro rfl; exact nf op
        unfold Occ at op ⊢
        rw [ha, if_neg p1] at op ⊢
        exact ⟨rfl, op⟩
      · show idx'.length = _
        rw [pm.length_eq]; simp
      · refine ⟨nodNew, memNew, ?_, ?_⟩
        · intro p hp op
          obtain ⟨h3, h4⟩ := (memI _ op).mp (at_mem hp)
          obtain ⟨q, hq, eq'⟩ := mem_at h3
          dsimp only
          rw [if_neg h4, ← eq']
          exact l.head q hq (by unfold Occ; rw [eq']; exact op)
        · intro h hne
          split_ifs at hne with c1
          · exact absurd rfl hne
          · obtain ⟨p, hp, op, ep⟩ := l.slot h hne
            obtain ⟨q, hq, eq'⟩ := mem_at ((memI _ op).mpr ⟨at_mem hp, by rw [ep]; exact c1⟩)
            exact ⟨q, hq, by unfold Occ; rw [eq']; exact op, by rw [eq']; exact ep⟩
    · rw [if_neg z]
      refine ⟨_, rfl, ?_, ?_, by simp, rfl, fun h => if h = e.hash then [] ++ B else ch h, ?_⟩
      · refine w.rh.congr (by simp) ?_
        intro p _
        unfold Occ
        rw [ha]
        split_ifs with c1
        · subst c1; exact ⟨rfl, ⟨fun _ => oi, fun _ => z⟩⟩
        · exact ⟨rfl, Iff.rfl⟩
      · refine uniq_congr w.uq (by simp) ?_
        intro p _ op
        unfold Occ at op ⊢
        rw [ha] at op ⊢
        split_ifs with c1
        · subst c1; exact ⟨rfl, oi⟩
        · rw [if_neg c1] at op; exact ⟨rfl, op⟩
      · refine ⟨nodNew, memNew, ?_, ?_⟩
        · intro p hp op
          simp only [List.length_set] at hp
          change Seg m.data (at' (m.index.set i _) p).pos _ 0
          unfold Occ at op
          change (at' (m.index.set i _) p).pos ≠ 0 at op
          dsimp only
          rw [ha] at op ⊢
          by_cases c1 : p = i
          · rw [if_pos c1] at op ⊢
            rw [if_pos eh, List.nil_append]
            show Seg m.data e.coll B 0
            rw [ec]; exact s2
          · rw [if_neg c1] at op ⊢
            by_cases c2 : (at' m.index p).hash = e.hash
            · exact absurd (uq p hp i hi op oi (by rw [c2, eh])) c1
            · rw [if_neg c2]
              exact l.head p hp op
        · intro h hne
          split_ifs at hne with c1
          · exact ⟨i, by simpa using hi, by unfold Occ; rw [ha, if_pos rfl]; exact z,
              by rw [ha, if_pos rfl]; exact eh.trans c1.symm⟩
          · obtain ⟨p, hp, op, ep⟩ := l.slot h hne
            have p1 : p ≠ i := by rintro rfl; exact c1 (by rw [← ep, eh])
            exact ⟨p, by simpa using hp, by unfold Occ; rw [ha, if_neg p1]; exact op, by rw [ha, if_neg p1]; exact ep⟩
  · -- inside the bucket
    simp only [List.concat_eq_append, List.getLast?_append, List.getLast?_singleton,
      Option.some_or, Option.getD_some] at *
    have hc' : c' ∈ ch e.hash := by rw [eA]; simp
    obtain ⟨hc0, _, ce, hce, _⟩ := (l.mem _ _).mp hc'
    rw [if_pos hc0, dat_ok hc0 hce]
    simp only
    rw [datSet_ok hc0 (List.getElem?_eq_some_iff.mp hce).1]
    have ndA : c' ∉ A' := by
      have h1 := (List.nodup_append.mp nd1).1
      have := List.nodup_append.mp h1
      exact fun hm => this.2.2 c' hm c' (by simp) rfl
    have ndB : c' ∉ B := by
      intro hm
      exact (List.nodup_append.mp nd1).2.2 c' (by simp) c' hm rfl
    have hco := core_set hce e.coll
    refine ⟨_, rfl, w.rh, w.uq, rfl, hco, fun h => if h = e.hash then A' ++ [c'] ++ B else ch h, nodNew, ?_, ?_, ?_⟩
    · intro h x'
      rw [memNew, posOf_core hco]
    · intro p hp op
      dsimp only
      split_ifs with c1
      · have : p = i := uq p hp i hi op oi (by rw [c1, eh])
        subst this
        rw [seg_append]
        refine ⟨e.coll, ?_, ?_⟩
        · refine seg_redirect s1 ndA ?_ ?_
          · intro y hy
            have y0 : y ≠ 0 := ((l.mem e.hash y).mp (by rw [eA]; simp [hy])).1
            rw [cl_set hce _ _ hc0 y0, if_neg]
            rintro rfl; exact ndA hy
          · rw [cl_set hce _ _ hc0 hc0, if_pos rfl]
        · rw [ec]
          refine seg_congr ?_ s2
          intro y hy
          have y0 : y ≠ 0 := ((l.mem e.hash y).mp (by rw [eA]; simp [hy])).1
          rw [cl_set hce _ _ hc0 y0, if_neg]
          rintro rfl; exact ndB hy
      · refine seg_congr ?_ (l.head p hp op)
        intro y hy
        have hy' := (l.mem _ _).mp hy
        rw [cl_set hce _ _ hc0 hy'.1, if_neg]
        rintro rfl
        obtain ⟨_, e1, he1, hh1⟩ := hy'.2
        obtain ⟨_, e2, he2, hh2⟩ := ((l.mem _ _).mp hc').2
        rw [he1] at he2
        cases he2
        exact c1 (by rw [← hh1, hh2])
    · intro h hne
      split_ifs at hne with c1
      · exact ⟨i, hi, oi, by rw [eh, c1]⟩
      · exact l.slot h hne

end Verif.Hash
