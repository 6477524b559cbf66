import Verif.RefGraphSound
/-! # C98: nothing else is invalidated -/
namespace Verif.RefGraph

/-- every reference can be bound to one place only (no conditional references) -/
def Single (h : Hist) : Prop := ∀ l right, (l, right) ∈ h → ∃ e, right = [e]

section
variable {written : Nat → Bool} {src : Nat → Option Nat} {place : Nat → Nat × Path}

theorem no_above {x w : Nat} (hn : src w = none) (hx : Above src x w) : False := by
  cases hx with
  | step h => rw [hn] at h; cases h
  | more h _ => rw [hn] at h; cases h

theorem new_not_above {l : Nat} {right : Lt} {older : Hist} (ho : Ordered ((l, right) :: older))
    (A : ActsOn ((l, right) :: older) src place) {v : Nat} (hv : v ∈ mentioned ((l, right) :: older)) (hne : v ≠ l) :
    ¬ Above src l v := by
  intro hx
  by_cases hvo : v ∈ lefts older
  · exact ho.2.1 (above_old ho.2.2.2 (A.tail ho) v (lefts_mentioned hvo) l hx)
  · exact no_above (A.free v hv (by simp only [lefts, List.map_cons, List.mem_cons, not_or]; exact ⟨hne, hvo⟩)).1 hx

theorem inv_exact : ∀ {h : Hist} {g : Graph}, Ordered h → ActsOn h src place → Single h → build written h = some g →
    ∀ w, ∀ x ∈ g.inv w, x ≠ w ∧ ¬ Above src x w := by
  intro h
  induction h with
  | nil =>
    intro g _ _ _ hb w x hx
    simp only [build, Option.some.injEq] at hb
    subst hb
    cases hx
  | cons e older ih =>
    obtain ⟨l, right⟩ := e
    intro g' ho A hs hb w x hx
    obtain ⟨g, hg, F, e1, e2, e3⟩ := build_step ho hb
    obtain ⟨r, p, h1, h2, h3, h4, h5⟩ := src_right ho A
    obtain ⟨e, he⟩ := hs l right (by simp)
    have hre : right = [(r, p)] := by
      rw [he] at h2 ⊢
      rw [List.mem_singleton.mp h2]
    have hs' : Single older := fun l' right' hm => hs l' right' (List.mem_cons_of_mem _ hm)
    have IH := ih ho.2.2.2 (A.tail ho) hs' hg
    have sib : ∀ u ∈ siblings written g l (locals right), u ∈ g.inv r := by
      intro u hu
      obtain ⟨⟨r', p', hm, hi⟩, -⟩ := mem_siblings.mp hu
      have := (mem_locals.mp hm).1
      rw [hre, List.mem_singleton, Prod.mk.injEq] at this
      exact this.1 ▸ hi
    rcases (e3 x w).mp hx with ⟨rfl, hu⟩ | hu | ⟨rfl, hv⟩
    · have hir := sib x hu
      refine ⟨fun e => ho.2.1 (e ▸ lefts_mentioned (F.vals r x hir)), fun ha => ?_⟩
      rcases ha.cases h1 with e | ha
      · exact (IH r x hir).1 e
      · exact (IH r x hir).2 ha
    · exact IH w x hu
    · have hwm : w ∈ mentioned ((x, right) :: older) ∧ w ≠ x := by
        rcases hv with h | ⟨q, h⟩
        · have := F.vals r w (sib w h)
          exact ⟨mem_mentioned_cons.mpr (.inr (.inr (lefts_mentioned this))), fun e => ho.2.1 (e ▸ lefts_mentioned this)⟩
        · rcases mem_ancestors.mp h with h | ⟨r', p', q', h, h', -⟩
          · have hm := (mem_locals.mp h).1
            exact ⟨mem_mentioned_cons.mpr (.inr (.inl ⟨q, hm⟩)), fun e => ho.2.2.1 (List.mem_map.mpr ⟨(w, q), hm, e⟩)⟩
          · have := F.keys r' w q' h'
            exact ⟨mem_mentioned_cons.mpr (.inr (.inr this)), fun e => ho.2.1 (e ▸ this)⟩
      exact ⟨fun e => hwm.2 e.symm, new_not_above ho A hwm.1 hwm.2⟩

/-- the graph's parents of a reference are what is above it, at the right place -/
theorem parents_exact : ∀ {h : Hist} {g : Graph}, Ordered h → ActsOn h src place → Single h → build written h = some g →
    ∀ x v p, (v, p) ∈ g.parents x → place x = ((place v).1, (place v).2 ++ p) := by
  intro h
  induction h with
  | nil =>
    intro g _ _ _ hb x v p hm
    simp only [build, Option.some.injEq] at hb
    subst hb
    cases hm
  | cons e older ih =>
    obtain ⟨l, right⟩ := e
    intro g' ho A hs hb x v q hm
    obtain ⟨g, hg, F, e1, e2, e3⟩ := build_step ho hb
    obtain ⟨r, p, h1, h2, h3, h4, h5⟩ := src_right ho A
    obtain ⟨e, he⟩ := hs l right (by simp)
    have hre : right = [(r, p)] := by
      rw [he] at h2 ⊢
      rw [List.mem_singleton.mp h2]
    have hs' : Single older := fun l' right' hm => hs l' right' (List.mem_cons_of_mem _ hm)
    by_cases hx : x = l
    · subst hx
      rw [e1] at hm
      rcases mem_ancestors.mp hm with h | ⟨r', p', q', h, h', rfl⟩
      · have := (mem_locals.mp h).1
        rw [hre, List.mem_singleton, Prod.mk.injEq] at this
        obtain ⟨rfl, rfl⟩ := this
        exact h4
      · have := (mem_locals.mp h).1
        rw [hre, List.mem_singleton, Prod.mk.injEq] at this
        obtain ⟨rfl, rfl⟩ := this
        rw [h4, ih ho.2.2.2 (A.tail ho) hs' hg r' v q' h', List.append_assoc]
    · rw [e2 x hx] at hm
      exact ih ho.2.2.2 (A.tail ho) hs' hg x v q hm

theorem prefix_add {a p q : Path} (h : p <+: q ∨ q <+: p) : a ++ p <+: a ++ q ∨ a ++ q <+: a ++ p :=
  h.imp (fun h => (List.prefix_append_right_inj a).mpr h) (fun h => (List.prefix_append_right_inj a).mpr h)

/-- **C98.** Without conditional references, a write invalidates exactly the references that overlap what it writes and that
it does not go through. -/
theorem exact {h : Hist} {g : Graph} (ho : Ordered h) (A : Acts h src place) (hs : Single h) (hc : Closed written h)
    (hb : build written h = some g) {w : Nat} {paths : List Path} (hz : (place w).1 ≠ 0) (hw : written w = true) (x : Nat) :
    x ∈ invalidated g w paths ↔ x ∈ lefts h ∧ x ≠ w ∧ ¬ Above src x w ∧
      ∃ path ∈ paths, Overlap (place x) ((place w).1, (place w).2 ++ path) := by
  constructor
  · intro hx
    unfold invalidated at hx
    dsimp only at hx
    rw [List.mem_filter, hasInter_iff] at hx
    obtain ⟨hi, v, p, q, hp, hq, hpq⟩ := hx
    obtain ⟨g', hg', F⟩ := build_from (written := written) h ho
    rw [hb] at hg'
    cases hg'
    have := inv_exact ho A.on hs hb w x hi
    refine ⟨F.vals w x hi, this.1, this.2, ?_⟩
    have px := parents_exact ho A.on hs hb x v p hp
    rw [List.mem_append] at hq
    rcases hq with hq | hq
    · obtain ⟨path, hm, he⟩ := List.mem_map.mp hq
      simp only [Prod.mk.injEq] at he
      obtain ⟨rfl, rfl⟩ := he
      refine ⟨path, hm, by rw [px], ?_⟩
      rw [px]
      exact prefix_add hpq
    · obtain ⟨path, hm, he⟩ := List.mem_flatMap.mp hq
      obtain ⟨q', hq', rfl⟩ := mem_join.mp he
      have pw := parents_exact ho A.on hs hb w v q' hq'
      refine ⟨path, hm, by rw [px, pw], ?_⟩
      rw [px, pw]
      dsimp only
      rw [List.append_assoc]
      exact prefix_add hpq
  · rintro ⟨h1, h2, h3, path, h4, h5⟩
    exact invalidates ho A hc hb h4 h1 hz h2 h3 hw h5

end

/-! ### a function with references into a vector of structs

`1` is a vector; `2 = 1[_]`, `3 = 2.a`, `4 = 2.b`, `5 = 1[_]`, `6` is `3` or `4`. -/

def demo : Hist := [(6, [(3, []), (4, [])]), (5, [(1, [0])]), (4, [(2, [2])]), (3, [(2, [1])]), (2, [(1, [0])])]

def demoSrc : Nat → Option Nat := fun v =>
  match v with
  | 2 => some 1 | 3 => some 2 | 4 => some 2 | 5 => some 1 | 6 => some 3 | _ => none

def demoPlace : Nat → Nat × Path := fun v =>
  match v with
  | 2 => (1, [0]) | 3 => (1, [0, 1]) | 4 => (1, [0, 2]) | 5 => (1, [0]) | 6 => (1, [0, 1]) | v => (v, [])

theorem demo_ordered : Ordered demo := by simp [demo, Ordered, mentioned]

theorem demo_acts : Acts demo demoSrc demoPlace where
  bound := by
    intro l right hm
    simp only [demo, List.mem_cons, Prod.mk.injEq, List.not_mem_nil, or_false] at hm
    rcases hm with ⟨rfl, rfl⟩ | ⟨rfl, rfl⟩ | ⟨rfl, rfl⟩ | ⟨rfl, rfl⟩ | ⟨rfl, rfl⟩
    · exact ⟨3, [], rfl, by simp, rfl⟩
    · exact ⟨1, [0], rfl, by simp, rfl⟩
    · exact ⟨2, [2], rfl, by simp, rfl⟩
    · exact ⟨2, [1], rfl, by simp, rfl⟩
    · exact ⟨1, [0], rfl, by simp, rfl⟩
  free := by
    intro v hv
    simp only [demo, lefts, List.map_cons, List.map_nil, List.mem_cons, List.not_mem_nil, or_false, not_or] at hv
    unfold demoSrc demoPlace
    constructor
    · split <;> simp_all
    · split <;> simp_all

/-- writing `2.a` through `3` invalidates `5` (the same element, perhaps) and `6` (`3` itself, perhaps), but not `2`, which it
goes through, nor `4`, which is the other field; clearing the vector invalidates them all -/
example : ∃ g, build (fun _ => true) demo = some g ∧ Closed (fun _ => true) demo ∧ (∀ x, x ∈ invalidated g 3 [[]] ↔ x = 5 ∨ x = 6) ∧
    (∀ x, x ∈ invalidated g 1 [[]] ↔ x = 2 ∨ x = 3 ∨ x = 4 ∨ x = 5 ∨ x = 6) := by
  refine ⟨_, rfl, fun _ _ _ _ _ _ _ => rfl, fun x => ?_, fun x => ?_⟩
  · have : ∀ g, build (fun _ => true) demo = some g → invalidated g 3 [[]] = [5, 6] := by
      intro g hg
      cases hg
      decide
    rw [this _ rfl]; simp
  · have : ∀ g, build (fun _ => true) demo = some g → invalidated g 1 [[]] = [2, 3, 4, 5, 6] := by
      intro g hg
      cases hg
      decide
    rw [this _ rfl]; simp

end Verif.RefGraph
