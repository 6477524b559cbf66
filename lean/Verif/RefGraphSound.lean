import Verif.RefGraphProps
/-! # C98: the theorems -/
namespace Verif.RefGraph

theorem zero_left {h : Hist} (ho : Ordered h) : 0 ∉ lefts h := by
  induction h with
  | nil => intro h; cases h
  | cons e older ih =>
    obtain ⟨l, right⟩ := e
    simp only [lefts, List.map_cons, List.mem_cons, not_or]
    exact ⟨fun e => ho.1 e.symm, ih ho.2.2.2⟩

theorem prefix_cmp {a b c : Path} (h1 : a <+: c) (h2 : b <+: c) : a <+: b ∨ b <+: a := by
  rcases Nat.le_total a.length b.length with h | h
  · exact .inl (List.prefix_of_prefix_length_le h1 h2 h)
  · exact .inr (List.prefix_of_prefix_length_le h2 h1 h)

section
variable {written : Nat → Bool} {src : Nat → Option Nat} {place : Nat → Nat × Path}

/-- the step from `older` to one more binding, in one place -/
theorem build_step {l : Nat} {right : Lt} {older : Hist} (ho : Ordered ((l, right) :: older)) {g' : Graph}
    (hb : build written ((l, right) :: older) = some g') :
    ∃ g, build written older = some g ∧ From older g ∧ g'.parents l = ancestors g (locals right) ∧
    (∀ v, v ≠ l → g'.parents v = g.parents v) ∧
    ∀ u v, u ∈ g'.inv v ↔ (v = l ∧ u ∈ siblings written g l (locals right)) ∨ u ∈ g.inv v ∨
      (u = l ∧ (v ∈ siblings written g l (locals right) ∨ ∃ q, (v, q) ∈ ancestors g (locals right))) := by
  obtain ⟨g, hg, F⟩ := build_from (written := written) older ho.2.2.2
  obtain ⟨g2, ht, h1, h2, h3⟩ := track_fresh (written := written) (g := g) (l := l) (right := right)
      (F.parents l (fun hm => ho.2.1 (lefts_mentioned hm))) (F.inv l ho.2.1)
  simp only [build, hg, ht, Option.some.injEq] at hb
  subst hb
  exact ⟨g, hg, F, h1, h2, h3⟩

/-- the graph's parents of `w` include everything above it, at the right place, and those invalidate `w` -/
theorem above_parent : ∀ {h : Hist} {g : Graph}, Ordered h → ActsOn h src place → build written h = some g →
    ∀ w ∈ lefts h, (place w).1 ≠ 0 → ∀ x, Above src x w →
      (∃ q, (x, q) ∈ g.parents w ∧ (place w).2 = (place x).2 ++ q) ∧ w ∈ g.inv x := by
  intro h
  induction h with
  | nil => intro g _ _ _ w hw; cases hw
  | cons e older ih =>
    obtain ⟨l, right⟩ := e
    intro g' ho A hb w hw hz x hx
    obtain ⟨g, hg, F, e1, e2, e3⟩ := build_step ho hb
    obtain ⟨r, p, h1, h2, h3, h4, h5⟩ := src_right ho A
    by_cases hwl : w = l
    · subst hwl
      have hr0 : r ≠ 0 := by
        intro e
        subst e
        have := (h5 (zero_left ho.2.2.2)).2
        rw [h4, this] at hz
        exact hz rfl
      have hrl : (r, p) ∈ locals right := mem_locals.mpr ⟨h2, hr0⟩
      have key : ∃ q, (x, q) ∈ ancestors g (locals right) ∧ (place w).2 = (place x).2 ++ q := by
        rcases hx.cases h1 with rfl | hx
        · exact ⟨p, mem_ancestors.mpr (.inl hrl), by rw [h4]⟩
        · by_cases hr : r ∈ lefts older
          · have hzr : (place r).1 ≠ 0 := by rw [h4] at hz; exact hz
            obtain ⟨⟨q, hq, hp⟩, -⟩ := ih ho.2.2.2 (A.tail ho) hg r hr hzr x hx
            exact ⟨q ++ p, mem_ancestors.mpr (.inr ⟨r, p, q, hrl, hq, rfl⟩), by rw [h4]; simp only; rw [hp, List.append_assoc]⟩
          · have := (h5 hr).1
            cases hx with
            | step h => rw [this] at h; cases h
            | more h _ => rw [this] at h; cases h
      obtain ⟨q, hq, hp⟩ := key
      refine ⟨⟨q, by rw [e1]; exact hq, hp⟩, (e3 w x).mpr (.inr (.inr ⟨rfl, .inr ⟨q, hq⟩⟩))⟩
    · have hwo : w ∈ lefts older := by
        simp only [lefts, List.map_cons, List.mem_cons] at hw
        exact hw.resolve_left hwl
      obtain ⟨⟨q, hq, hp⟩, hi⟩ := ih ho.2.2.2 (A.tail ho) hg w hwo hz x hx
      exact ⟨⟨q, by rw [e2 w hwl]; exact hq, hp⟩, (e3 w x).mpr (.inr (.inl hi))⟩

/-- a reference's place is in the graph, under its root -/
theorem root_parent {h : Hist} {g : Graph} (ho : Ordered h) (A : ActsOn h src place) (hb : build written h = some g) {w : Nat}
    (hw : w ∈ lefts h) (hz : (place w).1 ≠ 0) : ((place w).1, (place w).2) ∈ g.parents w := by
  rcases root_above ho A w (lefts_mentioned hw) with h | ⟨h, hn⟩
  · exact absurd hw h.2.2
  · obtain ⟨⟨q, hq, hp⟩, -⟩ := above_parent ho A hb w hw hz _ h
    have : place (place w).1 = ((place w).1, []) :=
      (A.free _ (above_old ho A w (lefts_mentioned hw) _ h) hn).2
    rw [this] at hp
    rw [hp]
    exact hq

/-- references that overlap and of which one is written know of each other -/
theorem overlap_inv : ∀ {h : Hist} {g : Graph}, Ordered h → ActsOn h src place → build written h = some g → Closed written h →
    ∀ a ∈ mentioned h, ∀ b ∈ lefts h, a ≠ b → (place a).1 ≠ 0 → Overlap (place a) (place b) → (written a = true ∨ written b = true) →
      ¬ Above src b a → b ∈ g.inv a := by
  intro h
  induction h with
  | nil => intro g _ _ _ _ a _ b hb; cases hb
  | cons e older ih =>
    obtain ⟨l, right⟩ := e
    intro g' ho A hb hc a ha b hbl hab hz hov hw hna
    obtain ⟨g, hg, F, e1, e2, e3⟩ := build_step ho hb
    obtain ⟨r, p, h1, h2, h3, h4, h5⟩ := src_right ho A
    have hc' : Closed written older := fun l' right' hm => hc l' right' (List.mem_cons_of_mem _ hm)
    have ll : l ∈ lefts ((l, right) :: older) := by simp [lefts]
    have lo : ∀ v, v ∈ lefts ((l, right) :: older) → v ≠ l → v ∈ lefts older := fun v hv hne => by
      simp only [lefts, List.map_cons, List.mem_cons] at hv
      exact hv.resolve_left hne
    -- a reference bound before, that overlaps the new one and is not above it, is a sibling
    have sib : ∀ y, y ∈ lefts older → (place l).1 ≠ 0 → Overlap (place l) (place y) → (written l = true ∨ written y = true) →
        ¬ Above src y l → y ∈ siblings written g l (locals right) := by
      intro y hy hz hov hw hna
      have hyl : y ≠ l := fun e => ho.2.1 (e ▸ lefts_mentioned hy)
      have hr0 : r ≠ 0 := by
        intro e
        subst e
        have := (h5 (zero_left ho.2.2.2)).2
        rw [h4, this] at hz
        exact hz rfl
      have hrl : (r, p) ∈ locals right := mem_locals.mpr ⟨h2, hr0⟩
      have hzr : (place r).1 ≠ 0 := by rw [h4] at hz; exact hz
      have hzy : (place y).1 ≠ 0 := by rw [← hov.1]; exact hz
      have hyr : r ≠ y := fun e => hna (.step (e ▸ h1))
      have hnr : ¬ Above src y r := fun hc => hna (.more h1 hc)
      have hovr : Overlap (place r) (place y) := by
        refine ⟨by rw [← hov.1, h4], ?_⟩
        have hrl : (place r).2 <+: (place l).2 := by rw [h4]; exact List.prefix_append _ _
        rcases hov.2 with h | h
        · exact .inl (hrl.trans h)
        · exact prefix_cmp hrl h
      have hwr : written r = true ∨ written y = true := by
        rcases hw with h | h
        · exact .inl (hc l right (by simp) h r p h2)
        · exact .inr h
      -- `r` has been seen before: otherwise it is the root of `y`, hence above it
      have hrm : r ∈ mentioned older := by
        by_cases hr : r ∈ lefts older
        · exact lefts_mentioned hr
        · have hpr := (h5 hr).2
          rcases root_above ho.2.2.2 (A.tail ho) y (lefts_mentioned hy) with h | h
          · exact absurd hy h.2.2
          · have hroot : (place y).1 = r := by rw [← hovr.1, hpr]
            rw [hroot] at h
            exact above_old ho.2.2.2 (A.tail ho) y (lefts_mentioned hy) r h.1
      have hi : y ∈ g.inv r := ih ho.2.2.2 (A.tail ho) hg hc' r hrm y hy hyr hzr hovr hwr hnr
      refine mem_siblings.mpr ⟨⟨r, p, hrl, hi⟩, hw, ?_⟩
      rw [hasInter_iff]
      have R1 := root_parent ho A hb ll hz
      rw [e1] at R1
      have R2 := root_parent ho.2.2.2 (A.tail ho) hg hy hzy
      exact ⟨(place l).1, (place l).2, (place y).2, R1, by rw [hov.1]; exact R2, hov.2⟩
    by_cases hal : a = l
    · subst hal
      have hbo := lo b hbl (fun e => hab e.symm)
      exact (e3 b a).mpr (.inl ⟨rfl, sib b hbo hz hov hw hna⟩)
    · by_cases hbl' : b = l
      · subst hbl'
        have hzb : (place b).1 ≠ 0 := by rw [← hov.1]; exact hz
        by_cases hanc : Above src a b
        · obtain ⟨⟨q, hq, -⟩, hi⟩ := above_parent ho A hb b ll hzb a hanc
          exact hi
        · by_cases hao : a ∈ lefts older
          · exact (e3 b a).mpr (.inr (.inr ⟨rfl, .inl (sib a hao hzb ⟨hov.1.symm, hov.2.symm⟩ hw.symm hanc)⟩))
          · -- then `a` is a root, of `b`
            have hpa := (A.free a ha (fun hm => hao (lo a hm hal))).2
            rcases root_above ho A b (lefts_mentioned ll) with h | h
            · exact absurd ll h.2.2
            · have : (place b).1 = a := by rw [← hov.1, hpa]
              rw [this] at h
              exact absurd h.1 hanc
      · have hbo := lo b hbl hbl'
        -- neither is new; `a` may be new as a name, but then it is a root
        by_cases ham : a ∈ mentioned older
        · exact (e3 b a).mpr (.inr (.inl (ih ho.2.2.2 (A.tail ho) hg hc' a ham b hbo hab hz hov hw hna)))
        · exfalso
          have hpa := (A.free a ha (fun hm => ham (lefts_mentioned (lo a hm hal)))).2
          rcases root_above ho.2.2.2 (A.tail ho) b (lefts_mentioned hbo) with h | h
          · exact h.2.2 hbo
          · have : (place b).1 = a := by rw [← hov.1, hpa]
            rw [this] at h
            exact ham (above_old ho.2.2.2 (A.tail ho) b (lefts_mentioned hbo) a h.1)

theorem Acts.on {h : Hist} (A : Acts h src place) : ActsOn h src place := ⟨A.bound, fun v _ => A.free v⟩

/-- **C98.** Binding references never makes the compiler stop with `BUG`. -/
theorem never_bug {h : Hist} (ho : Ordered h) : ∃ g, build written h = some g :=
  (build_from h ho).imp fun _ h => h.1

/-- **C98.** Whatever each reference was bound to, a write to a place invalidates every reference that points to something in
it or around it, except the ones the write goes through (those the written variable was bound to). -/
theorem invalidates {h : Hist} {g : Graph} (ho : Ordered h) (A : Acts h src place) (hc : Closed written h)
    (hb : build written h = some g) {w x : Nat} {paths : List Path} {path : Path} (hp : path ∈ paths) (hx : x ∈ lefts h)
    (hz : (place w).1 ≠ 0) (hne : x ≠ w) (hna : ¬ Above src x w) (hw : written w = true)
    (hov : Overlap (place x) ((place w).1, (place w).2 ++ path)) : x ∈ invalidated g w paths := by
  have A' := A.on
  have hzx : (place x).1 ≠ 0 := by rw [hov.1]; exact hz
  have hov2 : Overlap (place w) (place x) := by
    refine ⟨hov.1.symm, ?_⟩
    have hpre : (place w).2 <+: (place w).2 ++ path := List.prefix_append _ _
    rcases hov.2 with h | h
    · exact prefix_cmp hpre h
    · exact .inl (hpre.trans h)
  have hwm : w ∈ mentioned h := by
    by_cases hwl : w ∈ lefts h
    · exact lefts_mentioned hwl
    · have hpw := (A.free w hwl).2
      rcases root_above ho A' x (lefts_mentioned hx) with h | h
      · exact absurd hx h.2.2
      · have : (place x).1 = w := by rw [hov.1, hpw]
        rw [this] at h
        exact above_old ho A' x (lefts_mentioned hx) w h.1
  have hi := overlap_inv ho A' hb hc w hwm x hx (fun e => hne e.symm) hz hov2 (.inl hw) hna
  unfold invalidated
  dsimp only
  rw [List.mem_filter]
  refine ⟨hi, ?_⟩
  rw [hasInter_iff]
  have Rx := root_parent ho A' hb hx hzx
  by_cases hwl : w ∈ lefts h
  · have Rw := root_parent ho A' hb hwl hz
    refine ⟨(place x).1, (place x).2, (place w).2 ++ path, Rx, ?_, hov.2⟩
    rw [List.mem_append]
    exact .inr (List.mem_flatMap.mpr ⟨path, hp, mem_join.mpr ⟨(place w).2, by rw [hov.1]; exact Rw, rfl⟩⟩)
  · have hpw := (A.free w hwl).2
    refine ⟨(place x).1, (place x).2, path, Rx, ?_, ?_⟩
    · rw [List.mem_append]
      exact .inl (List.mem_map.mpr ⟨path, hp, by rw [hov.1, hpw]⟩)
    · have := hov.2
      rw [hpw] at this
      exact this

end

end Verif.RefGraph
