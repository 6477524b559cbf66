import Verif.LifetimeEnc
import Mathlib.Tactic.Tauto
/-!
# Lists of paths: union and overlap
-/
namespace Verif.Lifetime
open Verif

theorem covers_append (p p' : SPath) (q : List Nat) : covers (p ++ p') q ↔ covers p q ∧ covers p' (q.drop p.length) := by
  induction p generalizing q with
  | nil => simp [covers]
  | cons a p ih =>
    cases q with
    | nil =>
      show False ↔ False ∧ _
      simp
    | cons x q =>
      show (_ ∧ _ ∧ covers (p ++ p') q) ↔ (_ ∧ _ ∧ covers p q) ∧ covers p' (q.drop p.length)
      rw [ih]
      tauto

/-- Some path leads to the place. -/
def cov (ps : Paths) (q : List Nat) : Prop := ∃ p ∈ ps, covers p q

theorem cov_append (a b : Paths) (q : List Nat) : cov (a ++ b) q ↔ cov a q ∨ cov b q := by
  simp only [cov, List.mem_append]
  constructor
  · rintro ⟨p, h | h, c⟩
    · exact Or.inl ⟨p, h, c⟩
    · exact Or.inr ⟨p, h, c⟩
  · rintro (⟨p, h, c⟩ | ⟨p, h, c⟩)
    · exact ⟨p, Or.inl h, c⟩
    · exact ⟨p, Or.inr h, c⟩

theorem cov_cons (p : SPath) (b : Paths) (q : List Nat) : cov (p :: b) q ↔ covers p q ∨ cov b q := by
  simp [cov]

/-- One path leads into the storage of another, which is no longer and wraps it at its last step. -/
theorem within (host path : SPath) (n : Nat) (hl : host.length = n + 1)
    (ht : path.take n = host.take n) (a b : SubRegion) (ha : host[n]? = some a) (hb : path[n]? = some b)
    (h0 : a.flatOffset ≤ b.flatOffset) (h1 : b.flatOffset + b.flatCount ≤ a.flatOffset + a.flatCount) (q : List Nat)
    (hc : covers path q) : covers host q := by
  have eh : host = host.take n ++ [a] := by
    have h1 : host.take (n + 1) = host := List.take_of_length_le (by omega)
    conv => lhs; rw [← h1]
    rw [List.take_add_one, ha]
    rfl
  have hbl := (List.getElem?_eq_some_iff.mp hb).1
  have ep : path = path.take n ++ b :: path.drop (n + 1) := by
    have hx : path[n]'hbl = b := (List.getElem?_eq_some_iff.mp hb).2
    rw [← hx, List.getElem_cons_drop, List.take_append_drop]
  rw [ep, covers_append, List.length_take, Nat.min_eq_left (by omega)] at hc
  rw [eh, covers_append, List.length_take, Nat.min_eq_left (by omega), ← ht]
  refine ⟨hc.1, ?_⟩
  cases hq : q.drop n with
  | nil => rw [hq] at hc; exact hc.2.elim
  | cons x q' =>
    rw [hq] at hc
    exact ⟨by have := hc.2.1; omega, by have := hc.2.2.1; omega, trivial⟩

theorem wraps_left {host path : SPath} (h : (wraps host path).1 = true) (hl : path.length ≥ host.length) (q : List Nat)
    (hc : covers path q) : covers host q := by
  unfold wraps at h
  rw [Nat.min_eq_right hl] at h
  dsimp only at h
  split_ifs at h with hc1
  · rw [beq_iff_eq] at hc1
    cases ha : host[host.length - 1]? with
    | none => rw [ha] at h; simp at h
    | some a =>
      have hlt := (List.getElem?_eq_some_iff.mp ha).1
      cases hb : path[host.length - 1]? with
      | none => rw [ha, hb] at h; simp at h
      | some b =>
        rw [ha, hb] at h
        simp only [Bool.and_eq_true, decide_eq_true_eq] at h
        exact within host path (host.length - 1) (by omega) hc1 a b ha hb h.1 h.2 q hc

theorem wraps_right {host path : SPath} (h : (wraps host path).2 = true) (hl : host.length ≥ path.length) (q : List Nat)
    (hc : covers host q) : covers path q := by
  unfold wraps at h
  rw [Nat.min_eq_left hl] at h
  dsimp only at h
  split_ifs at h with hc1
  · rw [beq_iff_eq] at hc1
    cases ha : host[path.length - 1]? with
    | none => rw [ha] at h; simp at h
    | some a =>
      cases hb : path[path.length - 1]? with
      | none => rw [ha, hb] at h; simp at h
      | some b =>
        have hlt := (List.getElem?_eq_some_iff.mp hb).1
        rw [ha, hb] at h
        simp only [Bool.and_eq_true, decide_eq_true_eq] at h
        exact within path host (path.length - 1) (by omega) hc1.symm b a hb ha h.1 h.2 q hc

theorem unionLoop_cov (path : SPath) (kept rest : Paths) (q : List Nat) :
    cov (unionLoop path kept rest).1 q ↔ cov kept q ∨ cov rest q ∨ covers path q := by
  induction rest generalizing kept with
  | nil =>
    show cov (kept ++ [path]) q ↔ _
    rw [cov_append, cov_cons]
    simp [cov]
  | cons host rest ih =>
    unfold unionLoop
    simp only
    split_ifs with h1 h2
    · rw [Bool.and_eq_true, decide_eq_true_eq] at h1
      have := wraps_left h1.1 h1.2 q
      rw [cov_append, cov_cons]
      tauto
    · rw [Bool.and_eq_true, decide_eq_true_eq] at h2
      have := wraps_right h2.1 h2.2 q
      rw [ih, cov_cons]
      tauto
    · rw [ih, cov_append, cov_cons, cov_cons]
      have : ¬ cov [] q := by simp [cov]
      tauto

theorem unionLoop_mem (path : SPath) (kept rest : Paths) (p : SPath) (h : p ∈ (unionLoop path kept rest).1) :
    p ∈ kept ∨ p ∈ rest ∨ p = path := by
  induction rest generalizing kept with
  | nil =>
    change p ∈ kept ++ [path] at h
    rw [List.mem_append, List.mem_singleton] at h
    tauto
  | cons host rest ih =>
    unfold unionLoop at h
    simp only at h
    split_ifs at h
    · rw [List.mem_append] at h; tauto
    · have := ih kept h
      rw [List.mem_cons]; tauto
    · have := ih _ h
      rw [List.mem_append, List.mem_singleton] at this
      rw [List.mem_cons]; tauto

theorem unionLoop_ne_nil (path : SPath) (kept rest : Paths) : (unionLoop path kept rest).1 ≠ [] := by
  induction rest generalizing kept with
  | nil =>
    show kept ++ [path] ≠ []
    simp
  | cons host rest ih =>
    unfold unionLoop
    simp only
    split_ifs
    · simp
    · exact ih kept
    · exact ih _

/-- `Paths_union` of a list of paths and a path. -/
theorem addPath_cov (ps : Paths) (p : SPath) (q : List Nat) : cov (addPath ps p) q ↔ cov ps q ∨ covers p q := by
  unfold addPath
  rw [unionLoop_cov]
  have : ¬ cov [] q := by simp [cov]
  tauto

theorem addPath_mem {ps : Paths} {p x : SPath} (h : x ∈ addPath ps p) : x ∈ ps ∨ x = p := by
  have := unionLoop_mem p [] ps x h
  simpa using this

theorem addPath_ne_nil (ps : Paths) (p : SPath) : addPath ps p ≠ [] := unionLoop_ne_nil _ _ _

theorem foldl_addPath_cov (pa pb : Paths) (q : List Nat) : cov (pb.foldl addPath pa) q ↔ cov pa q ∨ cov pb q := by
  induction pb generalizing pa with
  | nil => simp [cov]
  | cons p pb ih =>
    rw [List.foldl_cons, ih, addPath_cov, cov_cons]
    tauto

theorem foldl_addPath_mem {pa pb : Paths} {x : SPath} (h : x ∈ pb.foldl addPath pa) : x ∈ pa ∨ x ∈ pb := by
  induction pb generalizing pa with
  | nil => exact Or.inl h
  | cons p pb ih =>
    rw [List.foldl_cons] at h
    rcases ih h with h | h
    · rcases addPath_mem h with h | h
      · exact Or.inl h
      · exact Or.inr (by simp [h])
    · exact Or.inr (by simp [h])

theorem foldl_addPath_ne_nil {pa pb : Paths} (h : pa ≠ []) : pb.foldl addPath pa ≠ [] := by
  induction pb generalizing pa with
  | nil => exact h
  | cons p pb ih => rw [List.foldl_cons]; exact ih (addPath_ne_nil _ _)

/-! ## Overlap -/

theorem ValidPath.pos {p : SPath} (h : ValidPath p) : ∀ sr ∈ p, 0 < sr.flatCount := by
  induction p with
  | nil => simp
  | cons a p ih =>
    cases p with
    | nil => intro sr hs; rw [List.mem_singleton] at hs; subst hs; exact h.1
    | cons b p =>
      intro sr hs
      rcases List.mem_cons.mp hs with rfl | hs
      · have := h.1; omega
      · exact ih h.2.2 sr hs

theorem covers_some {p : SPath} (h : ∀ sr ∈ p, 0 < sr.flatCount) : covers p (p.map SubRegion.flatOffset) := by
  induction p with
  | nil => trivial
  | cons a p ih => exact ⟨Nat.le_refl _, by have := h a (by simp); omega, ih (fun s hs => h s (by simp [hs]))⟩

theorem overlap_pos {a b : SubRegion} (ha : 0 < a.flatCount) (hb : 0 < b.flatCount) : ¬ overlap a b ≤ 0 ↔
    ∃ x, a.flatOffset ≤ x ∧ x < a.flatOffset + a.flatCount ∧ b.flatOffset ≤ x ∧ x < b.flatOffset + b.flatCount := by
  unfold overlap
  constructor
  · intro h
    exact ⟨max a.flatOffset b.flatOffset, by omega, by omega, by omega, by omega⟩
  · rintro ⟨x, h1, h2, h3, h4⟩
    omega

/-- The test of `Paths_hasInter` for two paths: there is a place both lead to. -/
theorem pathsOverlap_iff {a b : SPath} (ha : ∀ sr ∈ a, 0 < sr.flatCount) (hb : ∀ sr ∈ b, 0 < sr.flatCount) :
    pathsOverlap a b = true ↔ ∃ q, covers a q ∧ covers b q := by
  induction a generalizing b with
  | nil => exact ⟨fun _ => ⟨_, trivial, covers_some hb⟩, fun _ => by unfold pathsOverlap; rfl⟩
  | cons x a ih =>
    cases b with
    | nil => exact ⟨fun _ => ⟨_, covers_some ha, trivial⟩, fun _ => by unfold pathsOverlap; rfl⟩
    | cons y b =>
      have hx := ha x (by simp)
      have hy := hb y (by simp)
      have ih' := ih (fun s hs => ha s (by simp [hs])) (b := b) (fun s hs => hb s (by simp [hs]))
      have op := overlap_pos hx hy
      unfold pathsOverlap
      by_cases c : overlap x y ≤ 0
      · rw [if_pos c]
        constructor
        · intro h; cases h
        · rintro ⟨q, h1, h2⟩
          cases q with
          | nil => exact h1.elim
          | cons z q => exact absurd c (op.mpr ⟨z, h1.1, h1.2.1, h2.1, h2.2.1⟩)
      · rw [if_neg c, ih']
        obtain ⟨z, hz⟩ := op.mp c
        constructor
        · rintro ⟨q, h1, h2⟩
          exact ⟨z :: q, ⟨hz.1, hz.2.1, h1⟩, ⟨hz.2.2.1, hz.2.2.2, h2⟩⟩
        · rintro ⟨q, h1, h2⟩
          cases q with
          | nil => exact h1.elim
          | cons w q => exact ⟨q, h1.2.2, h2.2.2⟩

theorem whole_not_valid {ps : Paths} (h : ∀ p ∈ ps, ValidPath p) : ps ≠ whole := by
  rintro rfl
  have := h [⟨0, 0⟩] (by simp [whole])
  exact absurd this.1 (by simp)

/-- `Paths_hasInter` on the encodings of two lists of paths. -/
theorem Paths_hasInter_ok {pa pb : Paths} (h0 : pa ≠ []) (ha : ∀ p ∈ pa, ValidPath p) (h0' : pb ≠ [])
    (hb : ∀ p ∈ pb, ValidPath p) :
    ∃ r, Paths_hasInter (encPaths pa) (encPaths pb) = some r ∧ (r = true ↔ ∃ q, cov pa q ∧ cov pb q) := by
  unfold Paths_hasInter
  rw [parsePaths_enc pa ⟨h0, fun p hp => (ha p hp).enc⟩, parsePaths_enc pb ⟨h0', fun p hp => (hb p hp).enc⟩]
  refine ⟨_, rfl, ?_⟩
  simp only [List.any_eq_true]
  constructor
  · rintro ⟨p, hp, p', hp', h⟩
    obtain ⟨q, h1, h2⟩ := (pathsOverlap_iff (ha p hp).pos (hb p' hp').pos).mp h
    exact ⟨q, ⟨p, hp, h1⟩, ⟨p', hp', h2⟩⟩
  · rintro ⟨q, ⟨p, hp, h1⟩, ⟨p', hp', h2⟩⟩
    exact ⟨p, hp, p', hp', (pathsOverlap_iff (ha p hp).pos (hb p' hp').pos).mpr ⟨q, h1, h2⟩⟩

end Verif.Lifetime
