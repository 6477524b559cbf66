import Verif.RefGraphSpec
/-! # C98: a write invalidates the references that point into what it writes -/
namespace Verif.RefGraph

theorem meets_iff (p q : Path) : meets p q = true ↔ p <+: q ∨ q <+: p := by
  unfold meets; rw [Bool.or_eq_true, List.isPrefixOf_iff_prefix, List.isPrefixOf_iff_prefix]

theorem hasInter_iff (a b : Lt) : hasInter a b = true ↔ ∃ v p q, (v, p) ∈ a ∧ (v, q) ∈ b ∧ (p <+: q ∨ q <+: p) := by
  unfold hasInter
  simp only [List.any_eq_true, Bool.and_eq_true, decide_eq_true_eq, meets_iff]
  constructor
  · rintro ⟨⟨v, p⟩, h1, ⟨v', q⟩, h2, rfl, h3⟩
    exact ⟨v, p, q, h1, h2, h3⟩
  · rintro ⟨v, p, q, h1, h2, h3⟩
    exact ⟨(v, p), h1, (v, q), h2, rfl, h3⟩

theorem mem_join {l : Lt} {c : Path} {v : Nat} {q : Path} : (v, q) ∈ join l c ↔ ∃ p, (v, p) ∈ l ∧ q = p ++ c := by
  unfold join
  simp only [List.mem_map, Prod.exists, Prod.mk.injEq]
  constructor
  · rintro ⟨a, b, h, rfl, rfl⟩; exact ⟨b, h, rfl⟩
  · rintro ⟨p, h, rfl⟩; exact ⟨v, p, h, rfl, rfl⟩

theorem mem_ancestors {g : Graph} {right : Lt} {v : Nat} {q : Path} : (v, q) ∈ ancestors g right ↔
    (v, q) ∈ right ∨ ∃ r p p', (r, p) ∈ right ∧ (v, p') ∈ g.parents r ∧ q = p' ++ p := by
  unfold ancestors
  rw [List.mem_append, List.mem_flatMap]
  constructor
  · rintro (h | ⟨⟨r, p⟩, h1, h2⟩)
    · exact .inl h
    · obtain ⟨p', h3, h4⟩ := mem_join.mp h2
      exact .inr ⟨r, p, p', h1, h3, h4⟩
  · rintro (h | ⟨r, p, p', h1, h2, h3⟩)
    · exact .inl h
    · exact .inr ⟨(r, p), h1, mem_join.mpr ⟨p', h2, h3⟩⟩

theorem mem_siblings {written : Nat → Bool} {g : Graph} {left : Nat} {right : Lt} {s : Nat} :
    s ∈ siblings written g left right ↔ (∃ r p, (r, p) ∈ right ∧ s ∈ g.inv r) ∧ (written left = true ∨ written s = true) ∧
      hasInter (ancestors g right) (g.parents s) = true := by
  unfold siblings
  rw [List.mem_filter, List.mem_flatMap, Bool.and_eq_true, Bool.or_eq_true]
  constructor
  · rintro ⟨⟨⟨r, p⟩, h1, h2⟩, h3⟩; exact ⟨⟨r, p, h1, h2⟩, h3⟩
  · rintro ⟨⟨r, p, h1, h2⟩, h3⟩; exact ⟨⟨⟨r, p⟩, h1, h2⟩, h3⟩

/-- the locals of a right hand side -/
def locals (right : Lt) : Lt := right.filter fun x => decide (x.1 ≠ 0)

theorem mem_locals {right : Lt} {r : Nat} {p : Path} : (r, p) ∈ locals right ↔ (r, p) ∈ right ∧ r ≠ 0 := by
  unfold locals; rw [List.mem_filter]; simp

theorem track_fresh {written : Nat → Bool} {g : Graph} {l : Nat} {right : Lt} (h1 : g.parents l = []) (h2 : g.inv l = []) :
    ∃ g', track written g l right = some g' ∧ g'.parents l = ancestors g (locals right) ∧ (∀ v, v ≠ l → g'.parents v = g.parents v) ∧
    ∀ u v, u ∈ g'.inv v ↔ (v = l ∧ u ∈ siblings written g l (locals right)) ∨ u ∈ g.inv v ∨
      (u = l ∧ (v ∈ siblings written g l (locals right) ∨ ∃ q, (v, q) ∈ ancestors g (locals right))) := by
  unfold track
  dsimp only
  rw [h1, h2, show (right.filter fun x => decide (x.1 ≠ 0)) = locals right from rfl]
  simp only [List.isEmpty_nil, Bool.not_true, Bool.and_false, Bool.or_false, Bool.false_eq_true, if_false]
  refine ⟨_, rfl, ?_, ?_, ?_⟩
  · dsimp only
    by_cases h : ancestors g (locals right) = []
    · rw [if_neg (fun c => c.2 h), h, h1]
    · rw [if_pos ⟨rfl, h⟩]
  · intro v hv
    dsimp only
    rw [if_neg (fun c => hv c.1)]
  · intro u v
    dsimp only
    rw [List.mem_append, List.mem_append]
    have e1 : u ∈ (if v = l ∧ siblings written g l (locals right) ≠ [] then siblings written g l (locals right) else g.inv v) ↔
        (v = l ∧ u ∈ siblings written g l (locals right)) ∨ u ∈ g.inv v := by
      by_cases hv : v = l
      · subst hv
        by_cases h : siblings written g v (locals right) = []
        · rw [if_neg (fun c => c.2 h), h]; simp
        · rw [if_pos ⟨rfl, h⟩, h2]; simp
      · rw [if_neg (fun c => hv c.1)]; simp [hv]
    have e2 : u ∈ (if (siblings written g l (locals right)).contains v = true then [l] else []) ↔
        u = l ∧ v ∈ siblings written g l (locals right) := by
      by_cases h : v ∈ siblings written g l (locals right)
      · rw [if_pos (by simpa using h)]; simp [h]
      · rw [if_neg (by simpa using h)]; simp [h]
    have e3 : u ∈ (if ((ancestors g (locals right)).any fun x => decide (x.1 = v)) = true then [l] else []) ↔
        u = l ∧ ∃ q, (v, q) ∈ ancestors g (locals right) := by
      by_cases h : ∃ q, (v, q) ∈ ancestors g (locals right)
      · rw [if_pos (by obtain ⟨q, h⟩ := h; exact List.any_eq_true.mpr ⟨(v, q), h, by simp⟩)]; simp [h]
      · rw [if_neg (fun c => by
          obtain ⟨⟨v', q⟩, hm, he⟩ := List.any_eq_true.mp c
          simp only [decide_eq_true_eq] at he
          exact h ⟨q, he ▸ hm⟩)]
        simp [h]
    rw [e1, e2, e3]
    constructor
    · rintro ((h | h) | h)
      · rcases h with h | h
        · exact .inl h
        · exact .inr (.inl h)
      · exact .inr (.inr ⟨h.1, .inl h.2⟩)
      · exact .inr (.inr ⟨h.1, .inr h.2⟩)
    · rintro (h | h | ⟨h, h' | h'⟩)
      · exact .inl (.inl (.inl h))
      · exact .inl (.inl (.inr h))
      · exact .inl (.inr ⟨h, h'⟩)
      · exact .inr ⟨h, h'⟩

theorem mem_mentioned_cons {l : Nat} {right : Lt} {older : Hist} {v : Nat} :
    v ∈ mentioned ((l, right) :: older) ↔ v = l ∨ (∃ p, (v, p) ∈ right) ∨ v ∈ mentioned older := by
  unfold mentioned
  simp only [List.flatMap_cons, List.mem_append, List.mem_cons, List.mem_map, Prod.exists, exists_and_right, exists_eq_right]
  constructor
  · rintro ((h | h) | h)
    · exact .inl h
    · exact .inr (.inl h)
    · exact .inr (.inr h)
  · rintro (h | h | h)
    · exact .inl (.inl h)
    · exact .inl (.inr h)
    · exact .inr h

/-- what the graph knows comes from the bindings -/
structure From (h : Hist) (g : Graph) : Prop where
  parents : ∀ v, v ∉ lefts h → g.parents v = []
  keys : ∀ v u q, (u, q) ∈ g.parents v → u ∈ mentioned h
  inv : ∀ v, v ∉ mentioned h → g.inv v = []
  vals : ∀ v, ∀ u ∈ g.inv v, u ∈ lefts h

theorem lefts_mentioned {h : Hist} {v : Nat} (hv : v ∈ lefts h) : v ∈ mentioned h := by
  unfold lefts at hv
  obtain ⟨⟨a, b⟩, h1, rfl⟩ := List.mem_map.mp hv
  exact List.mem_flatMap.mpr ⟨(a, b), h1, by simp⟩

theorem build_from {written : Nat → Bool} : ∀ (h : Hist), Ordered h → ∃ g, build written h = some g ∧ From h g := by
  intro h
  induction h with
  | nil =>
    intro _
    refine ⟨.empty, rfl, fun _ _ => rfl, ?_, fun _ _ => rfl, ?_⟩
    · intro v u q hm; cases hm
    · intro v u hu; cases hu
  | cons e older ih =>
    obtain ⟨l, right⟩ := e
    rintro ⟨h0, h1, h2, h3⟩
    obtain ⟨g, hb, F⟩ := ih h3
    obtain ⟨g', ht, hp, hp', hi⟩ := track_fresh (written := written) (g := g) (l := l) (right := right)
      (F.parents l (fun hm => h1 (lefts_mentioned hm))) (F.inv l h1)
    have hanc : ∀ u q, (u, q) ∈ ancestors g (locals right) → u ∈ mentioned ((l, right) :: older) := by
      intro u q hm
      rw [mem_mentioned_cons]
      rcases mem_ancestors.mp hm with h | ⟨r, p, p', h, h', _⟩
      · exact .inr (.inl ⟨q, (mem_locals.mp h).1⟩)
      · exact .inr (.inr (F.keys r u p' h'))
    have hsib : ∀ u, u ∈ siblings written g l (locals right) → u ∈ lefts older := by
      intro u hu
      obtain ⟨⟨r, p, h, h'⟩, -⟩ := mem_siblings.mp hu
      exact F.vals r u h'
    refine ⟨g', by simp only [build, hb, ht], ?_, ?_, ?_, ?_⟩
    · intro v hv
      simp only [lefts, List.map_cons, List.mem_cons, not_or] at hv
      rw [hp' v hv.1]; exact F.parents v hv.2
    · intro v u q hm
      by_cases hv : v = l
      · subst hv; rw [hp] at hm; exact hanc u q hm
      · rw [hp' v hv] at hm; rw [mem_mentioned_cons]; exact .inr (.inr (F.keys v u q hm))
    · intro v hv
      rw [List.eq_nil_iff_forall_not_mem]
      intro u hu
      rcases (hi u v).mp hu with ⟨h, -⟩ | h | ⟨-, h | ⟨q, h⟩⟩
      · exact hv (mem_mentioned_cons.mpr (.inl h))
      · rw [F.inv v (fun hm => hv (mem_mentioned_cons.mpr (.inr (.inr hm))))] at h; cases h
      · exact hv (mem_mentioned_cons.mpr (.inr (.inr (lefts_mentioned (hsib v h)))))
      · exact hv (hanc v q h)
    · intro v u hu
      simp only [lefts, List.map_cons, List.mem_cons]
      rcases (hi u v).mp hu with ⟨-, h⟩ | h | ⟨h, -⟩
      · exact .inr (hsib u h)
      · exact .inr (F.vals v u h)
      · exact .inl h

/-! ### runs -/

/-- `Acts`, for the variables that occur -/
structure ActsOn (h : Hist) (src : Nat → Option Nat) (place : Nat → Nat × Path) : Prop where
  bound : ∀ l right, (l, right) ∈ h → ∃ r p, src l = some r ∧ (r, p) ∈ right ∧ place l = ((place r).1, (place r).2 ++ p)
  free : ∀ v ∈ mentioned h, v ∉ lefts h → src v = none ∧ place v = (v, [])

theorem ActsOn.tail {e : Nat × Lt} {older : Hist} {src : Nat → Option Nat} {place : Nat → Nat × Path} (ho : Ordered (e :: older))
    (A : ActsOn (e :: older) src place) : ActsOn older src place := by
  obtain ⟨l, right⟩ := e
  refine ⟨fun l' right' h => A.bound l' right' (List.mem_cons_of_mem _ h), fun v hv hn => ?_⟩
  refine A.free v (mem_mentioned_cons.mpr (.inr (.inr hv))) ?_
  simp only [lefts, List.map_cons, List.mem_cons, not_or]
  exact ⟨fun e => ho.2.1 (e ▸ hv), hn⟩

section
variable {src : Nat → Option Nat} {place : Nat → Nat × Path}

theorem Above.cases {x w r : Nat} (h : Above src x w) (hr : src w = some r) : x = r ∨ Above src x r := by
  cases h with
  | step h => rw [hr] at h; exact .inl (Option.some.inj h).symm
  | more h h' => rw [hr] at h; obtain rfl := Option.some.inj h; exact .inr h'

/-- the right hand side of the newest binding: what it was bound to -/
theorem src_right {l : Nat} {right : Lt} {older : Hist} (ho : Ordered ((l, right) :: older))
    (A : ActsOn ((l, right) :: older) src place) : ∃ r p, src l = some r ∧ (r, p) ∈ right ∧ r ≠ l ∧
      place l = ((place r).1, (place r).2 ++ p) ∧
      (r ∉ lefts older → src r = none ∧ place r = (r, [])) := by
  obtain ⟨r, p, h1, h2, h3⟩ := A.bound l right (by simp)
  have hrl : r ≠ l := fun e => ho.2.2.1 (List.mem_map.mpr ⟨(r, p), h2, e⟩)
  refine ⟨r, p, h1, h2, hrl, h3, fun hn => ?_⟩
  refine A.free r (mem_mentioned_cons.mpr (.inr (.inl ⟨p, h2⟩))) ?_
  simp only [lefts, List.map_cons, List.mem_cons, not_or]
  exact ⟨hrl, hn⟩

/-- nothing that occurs is bound to something bound later -/
theorem above_old {h : Hist} (ho : Ordered h) (A : ActsOn h src place) : ∀ w ∈ mentioned h, ∀ x, Above src x w → x ∈ mentioned h := by
  induction h with
  | nil => intro w hw; cases hw
  | cons e older ih =>
    obtain ⟨l, right⟩ := e
    intro w hw x hx
    obtain ⟨r, p, h1, h2, h3, h4, h5⟩ := src_right ho A
    have below : ∀ w, w ∈ mentioned older → Above src x w → x ∈ mentioned ((l, right) :: older) := fun w hw hx =>
      mem_mentioned_cons.mpr (.inr (.inr (ih ho.2.2.2 (A.tail ho) w hw x hx)))
    have right_ok : ∀ w p, (w, p) ∈ right → Above src x w → x ∈ mentioned ((l, right) :: older) := by
      intro w p hm hx
      by_cases hw : w ∈ lefts older
      · exact below w (lefts_mentioned hw) hx
      · have hwl : w ≠ l := fun e => ho.2.2.1 (List.mem_map.mpr ⟨(w, p), hm, e⟩)
        have := (A.free w (mem_mentioned_cons.mpr (.inr (.inl ⟨p, hm⟩))) (by
          simp only [lefts, List.map_cons, List.mem_cons, not_or]; exact ⟨hwl, hw⟩)).1
        cases hx with
        | step h => rw [this] at h; cases h
        | more h _ => rw [this] at h; cases h
    rcases mem_mentioned_cons.mp hw with rfl | ⟨q, hq⟩ | hw
    · rcases hx.cases h1 with rfl | hx
      · exact mem_mentioned_cons.mpr (.inr (.inl ⟨p, h2⟩))
      · exact right_ok r p h2 hx
    · exact right_ok w q hq hx
    · exact below w hw hx

/-- what is above has the same root and is a prefix -/
theorem above_place {h : Hist} (ho : Ordered h) (A : ActsOn h src place) : ∀ w ∈ mentioned h, ∀ x, Above src x w →
    (place x).1 = (place w).1 ∧ (place x).2 <+: (place w).2 := by
  induction h with
  | nil => intro w hw; cases hw
  | cons e older ih =>
    obtain ⟨l, right⟩ := e
    intro w hw x hx
    obtain ⟨r, p, h1, h2, h3, h4, h5⟩ := src_right ho A
    have none_above : ∀ w, src w = none → Above src x w → False := by
      intro w hn hx
      cases hx with
      | step h => rw [hn] at h; cases h
      | more h _ => rw [hn] at h; cases h
    by_cases hwl : w = l
    · subst hwl
      rw [h4]
      rcases hx.cases h1 with rfl | hx
      · exact ⟨rfl, List.prefix_append _ _⟩
      · by_cases hr : r ∈ lefts older
        · obtain ⟨e1, e2⟩ := ih ho.2.2.2 (A.tail ho) r (lefts_mentioned hr) x hx
          exact ⟨e1, e2.trans (List.prefix_append _ _)⟩
        · exact (none_above r (h5 hr).1 hx).elim
    · by_cases hwo : w ∈ lefts older
      · exact ih ho.2.2.2 (A.tail ho) w (lefts_mentioned hwo) x hx
      · exact (none_above w (A.free w hw (by
          simp only [lefts, List.map_cons, List.mem_cons, not_or]; exact ⟨hwl, hwo⟩)).1 hx).elim

/-- every variable is below its root -/
theorem root_above {h : Hist} (ho : Ordered h) (A : ActsOn h src place) : ∀ w ∈ mentioned h,
    (place w).1 = w ∧ (place w).2 = [] ∧ w ∉ lefts h ∨ (Above src (place w).1 w ∧ (place w).1 ∉ lefts h) := by
  induction h with
  | nil => intro w hw; cases hw
  | cons e older ih =>
    obtain ⟨l, right⟩ := e
    intro w hw
    obtain ⟨r, p, h1, h2, h3, h4, h5⟩ := src_right ho A
    have up : ∀ w ∈ lefts older, Above src (place w).1 w ∧ (place w).1 ∉ lefts ((l, right) :: older) := by
      intro w hw
      have hm := lefts_mentioned hw
      rcases ih ho.2.2.2 (A.tail ho) w hm with h | h
      · exact absurd hw h.2.2
      · refine ⟨h.1, ?_⟩
        have := above_old ho.2.2.2 (A.tail ho) w hm _ h.1
        simp only [lefts, List.map_cons, List.mem_cons, not_or]
        exact ⟨fun e => ho.2.1 (e ▸ this), h.2⟩
    by_cases hwl : w = l
    · subst hwl
      right
      rw [h4]
      dsimp only
      by_cases hr : r ∈ lefts older
      · exact ⟨.more h1 (up r hr).1, (up r hr).2⟩
      · rw [(h5 hr).2]
        refine ⟨.step h1, ?_⟩
        simp only [lefts, List.map_cons, List.mem_cons, not_or]
        exact ⟨h3, hr⟩
    · by_cases hwo : w ∈ lefts older
      · exact .inr (up w hwo)
      · have hn : w ∉ lefts ((l, right) :: older) := by
          simp only [lefts, List.map_cons, List.mem_cons, not_or]; exact ⟨hwl, hwo⟩
        have := (A.free w hw hn).2
        left
        rw [this]
        exact ⟨rfl, rfl, hn⟩

end

end Verif.RefGraph
