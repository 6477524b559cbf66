import Verif.PathProps
/-!
# Paths (C22): what a path designates; `relative`, `join`, `dirname`, `filename`, `ext`, `noext`
-/
namespace Verif.Path
open Verif Verif.Prelude

/-! ## Normalisation and meaning -/

theorem walk1_skip (d : List Str) {x : Str} (h : x = [] ∨ x = str ".") : walk1 d x = d := by
  unfold walk1; rw [if_pos h]

theorem tidyTail_walk (xs : List Str) (d : List Str) : (tidyTail xs []).foldl walk1 d = xs.foldl walk1 d := by
  induction xs generalizing d with
  | nil => rfl
  | cons x xs ih =>
    have e : tidyTail (x :: xs) [] = tidy1 x (tidyTail xs []) := rfl
    rw [e, List.foldl_cons, ← ih]
    unfold tidy1
    split_ifs with h
    · rw [walk1_skip d (by tauto)]
    · rfl

theorem tidy_walk (l : List Str) (d : List Str) : (tidy l []).foldl walk1 d = l.foldl walk1 d := by
  cases l with
  | nil => rfl
  | cons x xs =>
    simp only [tidy]
    split_ifs with h
    · rw [tidyTail_walk, List.foldl_cons, walk1_skip d (Or.inr h)]
    · rw [List.foldl_cons, List.foldl_cons, tidyTail_walk]

theorem tidyTail_stays (xs : List Str) (n : Nat) : stays n (tidyTail xs []) ↔ stays n xs := by
  induction xs generalizing n with
  | nil => rfl
  | cons x xs ih =>
    have e : tidyTail (x :: xs) [] = tidy1 x (tidyTail xs []) := rfl
    rw [e]
    unfold tidy1
    split_ifs with h
    · rw [ih]
      simp only [stays]
      rw [if_pos (by tauto)]
    · simp only [stays]
      split_ifs
      · exact ih n
      · rw [ih]
      · rw [ih]

theorem tidy_stays (l : List Str) (n : Nat) : stays n (tidy l []) ↔ stays n l := by
  cases l with
  | nil => rfl
  | cons x xs =>
    simp only [tidy]
    split_ifs with h
    · rw [tidyTail_stays]; simp only [stays]; rw [if_pos (Or.inr h)]
    · simp only [stays]
      split_ifs
      · exact tidyTail_stays xs n
      · rw [tidyTail_stays]
      · rw [tidyTail_stays]

/-- A component that goes down. -/
def Down (x : Str) : Prop := x ≠ [] ∧ x ≠ str "." ∧ x ≠ str ".."

theorem walk1_down (d : List Str) {x : Str} (h : Down x) : walk1 d x = d ++ [x] := by
  unfold walk1
  rw [if_neg (by have := h.1; have := h.2.1; tauto), if_neg h.2.2]

theorem walk1_up (d : List Str) : walk1 d (str "..") = d.dropLast := by
  unfold walk1
  rw [if_neg (by decide), if_pos rfl]

/-- What the stack of the second loop looks like while nothing has gone wrong: `n` levels are left to climb. -/
def Good (abs : Bool) (n : Nat) (s : List Str) : Prop :=
  if abs then ∃ names, s = [] :: names ∧ (∀ x ∈ names, Down x) ∧ n = names.length
  else (∀ x ∈ s, Down x) ∧ n = s.length + 1 ∨ ∃ names, s = str ".." :: names ∧ (∀ x ∈ names, Down x) ∧ n = names.length

theorem foldl_snoc_walk (s : List Str) (x : Str) (d : List Str) : (s ++ [x]).foldl walk1 d = walk1 (s.foldl walk1 d) x := by
  simp

/-- Popping a name and walking `..` are the same. -/
theorem pop_walk (s : List Str) (d : List Str) (h : ∀ x ∈ s.getLast?, Down x) (hne : s ≠ []) :
    s.dropLast.foldl walk1 d = walk1 (s.foldl walk1 d) (str "..") := by
  rcases dropLast_snoc_cases s with rfl | ⟨i, z, rfl⟩
  · exact absurd rfl hne
  · rw [foldl_snoc_walk, walk1_down _ (h z (by simp)), walk1_up]
    simp

theorem stack1_good (abs : Bool) (n : Nat) (s : List Str) (x : Str) (hs : Good abs n s)
    (hx : Down x ∨ (x = str ".." ∧ n ≠ 0)) :
    Good abs (if x = str ".." then n - 1 else n + 1) (stack1 s x) ∧
      ∀ d, (stack1 s x).foldl walk1 d = walk1 (s.foldl walk1 d) x := by
  have down_mem : ∀ (t : List Str), (∀ y ∈ t, Down y) → Down x → ∀ y ∈ t ++ [x], Down y := by
    intro t ht hd y hy
    rcases List.mem_append.1 hy with h | h
    · exact ht y h
    · have : y = x := by simpa using h
      subst this; exact hd
  have dl_mem : ∀ (t : List Str), (∀ y ∈ t, Down y) → ∀ y ∈ t.dropLast, Down y :=
    fun t ht y hy => ht y (List.mem_of_mem_dropLast' hy)
  have gl : ∀ (a : Str) (t : List Str), t ≠ [] → (∀ y ∈ t, Down y) → ∀ y ∈ (a :: t).getLast?, Down y := by
    intro a t hne ht y hy
    rw [List.getLast?_cons_of_ne_nil hne] at hy
    exact ht y (List.mem_of_getLast? hy)
  rcases hx with hd | ⟨rfl, hn⟩
  · rw [if_neg hd.2.2]
    unfold stack1
    split_ifs with h0 h1
    · subst h0
      refine ⟨?_, fun d => rfl⟩
      unfold Good at hs ⊢
      cases abs with
      | true => obtain ⟨names, h, _⟩ := hs; exact absurd h (by simp)
      | false =>
        rcases hs with ⟨_, h⟩ | ⟨names, h, _⟩
        · left; exact ⟨fun y hy => by have : y = x := by simpa using hy
                                      subst this; exact hd, by simp at h ⊢; exact h⟩
        · exact absurd h (by simp)
    · exact absurd h1 hd.2.2
    · refine ⟨?_, fun d => foldl_snoc_walk s x d⟩
      unfold Good at hs ⊢
      cases abs with
      | true =>
        obtain ⟨names, rfl, h1, h2⟩ := hs
        exact ⟨names ++ [x], rfl, down_mem _ h1 hd, by simp [h2]⟩
      | false =>
        rcases hs with ⟨h1, h2⟩ | ⟨names, rfl, h1, h2⟩
        · left; exact ⟨down_mem _ h1 hd, by simp [h2]⟩
        · right; exact ⟨names ++ [x], rfl, down_mem _ h1 hd, by simp [h2]⟩
  · rw [if_pos rfl]
    unfold stack1
    rw [if_pos rfl]
    split_ifs with h0
    · subst h0
      refine ⟨?_, fun d => rfl⟩
      unfold Good at hs ⊢
      cases abs with
      | true => obtain ⟨names, h, _⟩ := hs; exact absurd h (by simp)
      | false =>
        rcases hs with ⟨_, h⟩ | ⟨names, h, _⟩
        · right; exact ⟨[], rfl, by simp, by simp at h ⊢; omega⟩
        · exact absurd h (by simp)
    · cases abs with
      | true =>
        obtain ⟨names, rfl, h1, h2⟩ := hs
        have hne : names ≠ [] := by rintro rfl; simp at h2; omega
        refine ⟨⟨names.dropLast, by rw [List.dropLast_cons_of_ne_nil hne], dl_mem _ h1, by simp [h2]⟩, fun d => ?_⟩
        exact pop_walk _ d (gl _ _ hne h1) h0
      | false =>
        rcases hs with ⟨h1, h2⟩ | ⟨names, rfl, h1, h2⟩
        · refine ⟨Or.inl ⟨dl_mem _ h1, ?_⟩, fun d => ?_⟩
          · have := List.length_pos_iff.2 h0
            rw [List.length_dropLast]; omega
          · exact pop_walk _ d (fun y hy => h1 y (List.mem_of_getLast? hy)) h0
        · have hne : names ≠ [] := by rintro rfl; simp at h2; omega
          refine ⟨Or.inr ⟨names.dropLast, by rw [List.dropLast_cons_of_ne_nil hne], dl_mem _ h1, by simp [h2]⟩, fun d => ?_⟩
          exact pop_walk _ d (gl _ _ hne h1) h0

theorem resolve_walk (abs : Bool) (l : List Str) : ∀ (n : Nat) (s : List Str), Good abs n s → stays n l →
    (∀ x ∈ l, x ≠ str "." ∧ x ≠ []) →
    (∃ m, Good abs m (l.foldl stack1 s)) ∧ ∀ d, (l.foldl stack1 s).foldl walk1 d = l.foldl walk1 (s.foldl walk1 d) := by
  induction l with
  | nil => intro n s hg _ _; exact ⟨⟨n, hg⟩, fun d => rfl⟩
  | cons x xs ih =>
    intro n s hg hst hx
    have hx0 := hx x (by simp)
    simp only [stays] at hst
    rw [if_neg (by tauto)] at hst
    have key := stack1_good abs n s x hg (by
      by_cases h : x = str ".."
      · rw [if_pos h] at hst; exact Or.inr ⟨h, hst.1⟩
      · exact Or.inl ⟨hx0.2, hx0.1, h⟩)
    have hst' : stays (if x = str ".." then n - 1 else n + 1) xs := by
      split_ifs at hst ⊢
      · exact hst.2
      · exact hst
    obtain ⟨h1, h2⟩ := ih _ _ key.1 hst' (fun y hy => hx y (by simp [hy]))
    refine ⟨h1, fun d => ?_⟩
    rw [List.foldl_cons, List.foldl_cons, h2 d, key.2 d]

/-- A relative path's components do not start with an empty one followed by others. -/
theorem comps_head (p : Str) : p.head? = some slash ↔ ∃ l, comps p = [] :: l ∧ l ≠ [] := by
  cases p with
  | nil => simp [comps]
  | cons c s =>
    by_cases h : c = slash
    · subst h
      simp only [List.head?_cons, comps, if_true, true_iff]
      exact ⟨_, rfl, comps_ne s⟩
    · obtain ⟨q, qs, e1, e2⟩ := comps_nonslash h s
      rw [e2]
      simp only [List.head?_cons, Option.some.injEq, h, false_iff]
      rintro ⟨l, e, _⟩
      simp at e

theorem snoc_stack (i : List Str) (z : Str) (s : List Str) : (i ++ [z]).foldl stack1 s = stack1 (i.foldl stack1 s) z := by simp

theorem stays_snoc_left (i : List Str) (z : Str) (n : Nat) (h : stays n (i ++ [z])) : stays n i := by
  induction i generalizing n with
  | nil => trivial
  | cons x xs ih =>
    simp only [List.cons_append, stays] at h ⊢
    split_ifs at h ⊢
    · exact ih _ h
    · exact ⟨h.1, ih _ h.2⟩
    · exact ih _ h

/-- Resolving a tidy list of a relative path. -/
theorem resolve_relative (l : List Str) (ht : Tidy l) (hst : stays 1 l) (hh : ∀ t, l = [] :: t → t = []) :
    (∀ d, (resolve l).foldl walk1 d = l.foldl walk1 d) ∧ ∀ t, resolve l = [] :: t → t = [] := by
  rcases dropLast_snoc_cases l with rfl | ⟨i, z, rfl⟩
  · exact ⟨fun d => rfl, fun t h => absurd h (by simp [resolve])⟩
  · have hi : ∀ x ∈ i, x ≠ str "." ∧ x ≠ [] := by
      intro x hx
      refine ⟨ht.1 x (by simp [hx]), ?_⟩
      cases i with
      | nil => cases hx
      | cons a i =>
        rcases List.mem_cons.1 hx with rfl | hx
        · rintro rfl
          have := hh (i ++ [z]) rfl
          simp at this
        · refine ht.2 x ?_
          rw [List.cons_append, List.tail_cons, List.dropLast_concat]; exact hx
    have hg0 : Good false 1 [] := Or.inl ⟨by simp, rfl⟩
    obtain ⟨⟨m, hm⟩, hw⟩ := resolve_walk false i 1 [] hg0 (stays_snoc_left i z 1 hst) hi
    have hall : ∀ y ∈ resolve i, y ≠ [] := by
      intro y hy
      rcases foldl_stack_mem i [] y hy with h | h
      · cases h
      · exact (hi y h).2
    by_cases hz : z = []
    · subst hz
      have e : resolve (i ++ [[]]) = resolve i ++ [[]] := by
        unfold resolve
        rw [snoc_stack, stack1]
        split_ifs with h0 h1
        · rw [h0]; rfl
        · exact absurd h1 (by decide)
        · rfl
      rw [e]
      refine ⟨fun d => ?_, fun t ht' => ?_⟩
      · rw [foldl_snoc_walk, foldl_snoc_walk]; congr 1; exact hw d
      · cases hr : resolve i with
        | nil => rw [hr] at ht'; simpa using ht'.symm
        | cons a r =>
          rw [hr] at ht' hall
          injection ht' with h1 h2
          exact absurd h1 (hall a (by simp))
    · obtain ⟨_, hw⟩ := resolve_walk false (i ++ [z]) 1 [] hg0 hst (by
        intro x hx
        rcases List.mem_append.1 hx with h | h
        · exact hi x h
        · have : x = z := by simpa using h
          subst this
          exact ⟨ht.1 x (by simp), hz⟩)
      refine ⟨hw, fun t ht' => ?_⟩
      have hm : ([] : Str) ∈ resolve (i ++ [z]) := by rw [ht']; simp
      rcases foldl_stack_mem _ [] _ hm with h | h
      · cases h
      · rcases List.mem_append.1 h with h | h
        · exact absurd rfl (hi _ h).2
        · have : [] = z := by simpa using h
          exact absurd this.symm hz

/-- Resolving a tidy list of an absolute path. -/
theorem resolve_absolute (l : List Str) (ht : Tidy ([] :: l)) (hst : stays 0 l) :
    (∀ d, (resolve ([] :: l)).foldl walk1 d = l.foldl walk1 d) ∧ ∃ t, resolve ([] :: l) = [] :: t ∧
      (t = [] → l.foldl walk1 [] = [] ∧ ∀ i, l ≠ i ++ [[]]) := by
  have hg0 : Good true 0 [[]] := ⟨[], rfl, by simp, rfl⟩
  have er : ∀ l, resolve ([] :: l) = l.foldl stack1 [[]] := fun l => rfl
  rcases dropLast_snoc_cases l with rfl | ⟨i, z, rfl⟩
  · exact ⟨fun d => rfl, [], rfl, fun _ => ⟨rfl, fun i h => by simp at h⟩⟩
  · have hi : ∀ x ∈ i, x ≠ str "." ∧ x ≠ [] := by
      intro x hx
      refine ⟨ht.1 x (by simp [hx]), ht.2 x ?_⟩
      rw [List.tail_cons, List.dropLast_concat]; exact hx
    have hsk : ∀ d, ([[]] : List Str).foldl walk1 d = d := fun d => walk1_skip d (Or.inl rfl)
    by_cases hz : z = []
    · subst hz
      obtain ⟨⟨m, names, hn, hd, _⟩, hw⟩ := resolve_walk true i 0 [[]] hg0 (stays_snoc_left i _ 0 hst) hi
      have e : resolve ([] :: (i ++ [[]])) = i.foldl stack1 [[]] ++ [[]] := by
        rw [er, snoc_stack, stack1]
        split_ifs with h0 h1
        · rw [hn] at h0; exact absurd h0 (by simp)
        · exact absurd h1 (by decide)
        · rfl
      rw [e]
      refine ⟨fun d => ?_, names ++ [[]], by rw [hn]; rfl, fun h => absurd h (by simp)⟩
      rw [foldl_snoc_walk, foldl_snoc_walk, hw d, hsk]
    · obtain ⟨⟨m, names, hn, hd, _⟩, hw⟩ := resolve_walk true (i ++ [z]) 0 [[]] hg0 hst (by
        intro x hx
        rcases List.mem_append.1 hx with h | h
        · exact hi x h
        · have : x = z := by simpa using h
          subst this
          exact ⟨ht.1 x (by simp), hz⟩)
      refine ⟨fun d => by rw [er, hw d, hsk], names, by rw [er, hn], fun h => ⟨?_, fun i' h' => ?_⟩⟩
      · subst h
        have := hw []
        rw [hn, hsk] at this
        rw [← this]
      · have := List.append_inj_right' h' rfl
        simp at this
        exact absurd this hz

theorem tidyTail_last (l : List Str) (i : List Str) (h : l = i ++ [[]]) : ∃ j, tidyTail l [] = j ++ [[]] := by
  subst h
  unfold tidyTail
  rw [List.foldr_append]
  have e : List.foldr tidy1 [] [[]] = [([] : Str)] := by decide
  rw [e]
  clear e
  induction i with
  | nil => exact ⟨[], rfl⟩
  | cons x xs ih =>
    obtain ⟨j, hj⟩ := ih
    rw [List.foldr_cons, hj]
    unfold tidy1
    split_ifs
    · exact ⟨j, rfl⟩
    · exact ⟨x :: j, rfl⟩

theorem comps_last (p : Str) (h : p.getLast? = some slash) : ∃ i, comps p = i ++ [[]] := by
  rcases List.eq_nil_or_concat p with rfl | ⟨q, c, rfl⟩
  · simp at h
  · have hc : c = slash := by simpa using h
    subst hc
    refine ⟨comps q, ?_⟩
    rw [List.concat_eq_append, comps_append_slash]; rfl

variable (junk : Nat → Str) (hj : ∀ n, (junk n).length = n)
include hj

/-- **C22 (meaning), relative paths, as far as it holds.** A relative path that never climbs more than one level above
its start designates, from every directory, the same place after normalisation.  For paths that climb further this is
false: `C22_parents_cancel`. -/
theorem C22_meaning_relative_partial (p : Str) (hrel : p.head? ≠ some slash) (h : stays 1 (comps p)) :
    ∃ q, normalize junk p = some q ∧ ∀ cwd, walk cwd q = walk cwd p := by
  refine ⟨_, normalize_eq junk hj p, fun cwd => ?_⟩
  have hh : ∀ t, tidy (comps p) [] = [] :: t → t = [] := by
    intro t ht
    cases hc : comps p with
    | nil => exact absurd hc (comps_ne p)
    | cons x xs =>
      rw [hc] at ht
      simp only [tidy] at ht
      split_ifs at ht with h1
      · have := (tidyTail_form xs).2
        rw [ht] at this
        by_contra hne
        exact this [] (by rw [List.dropLast_cons_of_ne_nil hne]; simp) rfl
      · injection ht with h2 h3
        by_contra hne
        refine hrel ((comps_head p).2 ⟨xs, by rw [hc, h2], ?_⟩)
        rintro rfl
        exact hne h3.symm
  obtain ⟨h1, h2⟩ := resolve_relative _ (tidy_form (comps p)) ((tidy_stays _ _).2 h) hh
  have hq : ¬ (glue [slash] (resolve (tidy (comps p) []))).head? = some slash := by
    rw [comps_head, comps_glue_resolve _ (resolve_free p)]
    rintro ⟨l, e, hne⟩
    split_ifs at e
    · injection e with _ e; exact hne e.symm
    · exact hne (h2 l e)
  unfold walk
  rw [if_neg hrel, if_neg hq, comps_glue_resolve _ (resolve_free p)]
  split_ifs with h0
  · have := h1 cwd
    rw [h0] at this
    rw [← tidy_walk (comps p), ← this]
    exact walk1_skip cwd (Or.inl rfl)
  · rw [h1, tidy_walk]

/-- **C22 (meaning), absolute paths, as far as it holds.** An absolute path that never climbs above the root, and that
either does not designate the root or ends in a slash, designates the same place after normalisation.  Otherwise it may not:
`C22_root_lost`. -/
theorem C22_meaning_absolute_partial (p : Str) (habs : p.head? = some slash) (h : stays 0 (comps p))
    (hroot : walk [] p ≠ [] ∨ p.getLast? = some slash) :
    ∃ q, normalize junk p = some q ∧ q.head? = some slash ∧ ∀ cwd, walk cwd q = walk cwd p := by
  obtain ⟨l, hl, hne⟩ := (comps_head p).1 habs
  have ht := tidy_form (comps p)
  have hst := (tidy_stays (comps p) 0).2 h
  have et : tidy (comps p) [] = [] :: tidyTail l [] := by
    rw [hl]; simp only [tidy]; rw [if_neg (by decide)]
  rw [et] at ht hst
  have hst' : stays 0 (tidyTail l []) := by
    have e : stays 0 ([] :: tidyTail l []) = stays 0 (tidyTail l []) := by
      rw [stays, if_pos (Or.inl rfl)]
    rw [e] at hst; exact hst
  obtain ⟨h1, t, h2, h3⟩ := resolve_absolute _ ht hst'
  have htne : t ≠ [] := by
    intro h0
    obtain ⟨h4, h5⟩ := h3 h0
    rcases hroot with hr | hr
    · apply hr
      unfold walk
      rw [if_pos habs, hl, List.foldl_cons, walk1_skip _ (Or.inl rfl), ← tidyTail_walk]
      exact h4
    · obtain ⟨i, hi⟩ := comps_last p hr
      rw [hl] at hi
      cases i with
      | nil => simp at hi; exact hne hi
      | cons a i =>
        rw [List.cons_append] at hi
        injection hi with _ hi
        obtain ⟨j, hj'⟩ := tidyTail_last l i hi
        exact h5 j hj'
  have hc : comps (glue [slash] (resolve (tidy (comps p) []))) = [] :: t := by
    rw [comps_glue_resolve _ (resolve_free p), et, h2, if_neg (by simp)]
  have hq : (glue [slash] (resolve (tidy (comps p) []))).head? = some slash :=
    (comps_head _).2 ⟨t, hc, htne⟩
  refine ⟨_, normalize_eq junk hj p, hq, fun cwd => ?_⟩
  unfold walk
  rw [if_pos habs, if_pos hq, hc, ← h2, h1, hl, List.foldl_cons, walk1_skip _ (Or.inl rfl), tidyTail_walk]

/-- Finding: `..` cancels a preceding `..`.  Every path that starts with `../../` loses both hops. -/
theorem C22_parents_cancel (p : Str) (hp : Clean p) (hrel : p.head? ≠ some slash) :
    normalize junk (str "../../" ++ p) = some p := by
  obtain ⟨names, hne, hn, rfl | rfl⟩ := hp
  · rw [normalize_eq junk hj]
    have ec : comps (str "../../" ++ glue [slash] names) = str ".." :: str ".." :: names := by
      show comps (str ".." ++ slash :: (str ".." ++ slash :: glue [slash] names)) = _
      rw [comps_append_slash, comps_append_slash, comps_glue names hne (fun x hx => (hn x hx).2.2.2)]
      rfl
    rw [ec, tidy_id]
    · show some (glue [slash] (names.foldl stack1 [])) = _
      congr 2
      exact resolve_id names (fun x hx => (hn x (List.mem_of_mem_tail hx)).2.2.1)
    · refine ⟨?_, ?_⟩
      · intro x hx
        simp only [List.mem_cons] at hx
        rcases hx with rfl | rfl | hx
        · decide
        · decide
        · exact (hn x hx).2.1
      · intro x hx
        have hx := List.mem_of_mem_dropLast' hx
        simp only [List.tail_cons, List.mem_cons] at hx
        rcases hx with rfl | hx
        · decide
        · exact (hn x hx).1
  · simp at hrel

/-- Finding: the root is dropped: `/../a` becomes the relative path `a`, and `/a/..` the empty path. -/
theorem C22_root_lost (a : Str) (ha : Name a) :
    normalize junk (str "/../" ++ a) = some a ∧ normalize junk (slash :: (a ++ str "/..")) = some [] := by
  have hc := comps_free ha.2.2.2
  refine ⟨?_, ?_⟩
  · rw [normalize_eq junk hj]
    have ec : comps (str "/../" ++ a) = [[], str "..", a] := by
      show comps ([] ++ slash :: (str ".." ++ slash :: a)) = _
      rw [comps_append_slash, comps_append_slash, hc]; rfl
    rw [ec, tidy_id]
    · rfl
    · refine ⟨?_, ?_⟩
      · intro x hx
        simp only [List.mem_cons, List.not_mem_nil, or_false] at hx
        rcases hx with rfl | rfl | rfl
        · decide
        · decide
        · exact ha.2.1
      · intro x hx
        have : x = str ".." := by simpa using hx
        subst this; decide
  · rw [normalize_eq junk hj]
    have ec : comps (slash :: (a ++ str "/..")) = [[], a, str ".."] := by
      show comps ([] ++ slash :: (a ++ slash :: str "..")) = _
      rw [comps_append_slash, comps_append_slash, hc]; rfl
    rw [ec, tidy_id]
    · unfold resolve
      rw [List.foldl_cons, List.foldl_cons]
      unfold stack1
      rw [if_pos rfl, if_neg (by simp), if_neg ha.2.2.1]
      rfl
    · refine ⟨?_, ?_⟩
      · intro x hx
        simp only [List.mem_cons, List.not_mem_nil, or_false] at hx
        rcases hx with rfl | rfl | rfl
        · decide
        · exact ha.2.1
        · decide
      · intro x hx
        have : x = a := by simpa using hx
        subst this; exact ha.1

omit hj

/-- The hypotheses of the theorems above hold of ordinary paths; the findings' paths violate them. -/
example : stays 1 (comps (str "a/.././b//../../x/")) ∧ stays 0 (comps (str "/usr/lib/../bin/./ls")) ∧
    walk [] (str "/usr/lib/../bin/./ls") = [str "usr", str "bin", str "ls"] := by
  refine ⟨?_, ?_, by decide +kernel⟩
  · have : comps (str "a/.././b//../../x/") = [str "a", str "..", str ".", str "b", [], str "..", str "..", str "x", []] := by
      decide +kernel
    rw [this]; simp [stays, str, ch]
  · have : comps (str "/usr/lib/../bin/./ls") = [[], str "usr", str "lib", str "..", str "bin", str ".", str "ls"] := by
      decide +kernel
    rw [this]; simp [stays, str, ch]

end Verif.Path
