import Verif.FlatProps
/-!
# The set algebra of flat sets (C19)
-/
namespace Verif.Flat
open Verif.Prelude (TotalOrder)

variable {K V : Type} {cmp : K → K → Int}

/-! ## Specification lists: by membership alone -/

open Classical in
/-- The members of `l` that are in `r`. -/
noncomputable def interS (l r : List K) : List K := l.filter fun k => decide (k ∈ r)

open Classical in
/-- The members of `l` that are not in `r`. -/
noncomputable def diffS (l r : List K) : List K := l.filter fun k => decide (k ∉ r)

/-- The ordered merge without duplicates. -/
def unionS (cmp : K → K → Int) : List K → List K → List K
  | [], r => r
  | l, [] => l
  | x :: l, y :: r =>
    if cmp x y = 0 then x :: unionS cmp l r
    else if cmp x y < 0 then x :: unionS cmp l (y :: r)
    else y :: unionS cmp (x :: l) r
termination_by l r => l.length + r.length

theorem unionS_nil (l : List K) : unionS cmp l [] = l := by cases l <;> simp [unionS]
theorem nil_unionS (r : List K) : unionS cmp [] r = r := by simp [unionS]

theorem mem_unionS (ho : TotalOrder cmp) (l r : List K) (k : K) : k ∈ unionS cmp l r ↔ k ∈ l ∨ k ∈ r := by
  fun_induction unionS cmp l r with
  | case1 r => simp
  | case2 l _ => simp
  | case3 x l y r h ih =>
    obtain rfl := (ho.eq_iff x y).1 h
    simp only [List.mem_cons, ih]; tauto
  | case4 x l y r h1 h2 ih => simp only [List.mem_cons, ih]; tauto
  | case5 x l y r h1 h2 ih => simp only [List.mem_cons, ih]; tauto

theorem unionS_sorted (ho : TotalOrder cmp) (l r : List K) (hl : Sorted cmp l) (hr : Sorted cmp r) :
    Sorted cmp (unionS cmp l r) := by
  fun_induction unionS cmp l r with
  | case1 r => exact hr
  | case2 l _ => exact hl
  | case3 x l y r h ih =>
    obtain ⟨a1, a2⟩ := List.pairwise_cons.1 hl
    obtain ⟨b1, b2⟩ := List.pairwise_cons.1 hr
    refine List.pairwise_cons.2 ⟨fun k hk => ?_, ih a2 b2⟩
    rcases (mem_unionS ho _ _ _).1 hk with hk | hk
    · exact a1 k hk
    · obtain rfl := (ho.eq_iff x y).1 h
      exact b1 k hk
  | case4 x l y r h1 h2 ih =>
    obtain ⟨a1, a2⟩ := List.pairwise_cons.1 hl
    obtain ⟨b1, b2⟩ := List.pairwise_cons.1 hr
    refine List.pairwise_cons.2 ⟨fun k hk => ?_, ih a2 hr⟩
    rcases (mem_unionS ho _ _ _).1 hk with hk | hk
    · exact a1 k hk
    · rcases List.mem_cons.1 hk with rfl | hk
      · exact h2
      · exact ho.trans _ _ _ h2 (b1 k hk)
  | case5 x l y r h1 h2 ih =>
    obtain ⟨a1, a2⟩ := List.pairwise_cons.1 hl
    obtain ⟨b1, b2⟩ := List.pairwise_cons.1 hr
    have hg := gt_of ho h1 h2
    refine List.pairwise_cons.2 ⟨fun k hk => ?_, ih hl b2⟩
    rcases (mem_unionS ho _ _ _).1 hk with hk | hk
    · rcases List.mem_cons.1 hk with rfl | hk
      · exact hg
      · exact ho.trans _ _ _ hg (a1 k hk)
    · exact b1 k hk

theorem mem_interS (l r : List K) (k : K) : k ∈ interS l r ↔ k ∈ l ∧ k ∈ r := by unfold interS; simp
theorem mem_diffS (l r : List K) (k : K) : k ∈ diffS l r ↔ k ∈ l ∧ k ∉ r := by unfold diffS; simp
theorem interS_sorted {l r : List K} (hl : Sorted cmp l) : Sorted cmp (interS l r) := List.Pairwise.filter _ hl
theorem diffS_sorted {l r : List K} (hl : Sorted cmp l) : Sorted cmp (diffS l r) := List.Pairwise.filter _ hl

/-! The four ways one step of a merge can go, for the two filters. -/

section steps
variable {x y : K} {l r : List K}

theorem not_mem_of_lt (ho : TotalOrder cmp) (hr : Sorted cmp (y :: r)) (h : cmp x y < 0) : x ∉ y :: r := by
  intro hx
  rcases List.mem_cons.1 hx with rfl | hx
  · exact irrefl ho _ h
  · exact irrefl ho x (ho.trans _ _ _ h ((List.pairwise_cons.1 hr).1 x hx))

theorem head_not_mem (ho : TotalOrder cmp) (hl : Sorted cmp (x :: l)) : x ∉ l :=
  fun h => irrefl ho x ((List.pairwise_cons.1 hl).1 x h)

theorem filter_mem_congr {p q : K → Prop} [DecidablePred p] [DecidablePred q] (l : List K) (h : ∀ k ∈ l, p k ↔ q k) :
    l.filter (fun k => decide (p k)) = l.filter (fun k => decide (q k)) := by
  apply List.filter_congr
  intro k hk
  exact decide_eq_decide.2 (h k hk)

open Classical in
theorem interS_lt (ho : TotalOrder cmp) (hr : Sorted cmp (y :: r)) (h : cmp x y < 0) :
    interS (x :: l) (y :: r) = interS l (y :: r) := by
  unfold interS
  rw [List.filter_cons, if_neg]
  simpa using not_mem_of_lt ho hr h

open Classical in
theorem interS_gt (ho : TotalOrder cmp) (hl : Sorted cmp (x :: l)) (h : cmp y x < 0) :
    interS (x :: l) (y :: r) = interS (x :: l) r := by
  unfold interS
  apply filter_mem_congr
  intro k hk
  rw [List.mem_cons]
  constructor
  · rintro (rfl | h')
    · exact absurd hk (not_mem_of_lt ho hl h)
    · exact h'
  · exact Or.inr

open Classical in
theorem interS_eq (ho : TotalOrder cmp) (hl : Sorted cmp (x :: l)) : interS (x :: l) (x :: r) = x :: interS l r := by
  unfold interS
  rw [List.filter_cons, if_pos (by simp)]
  congr 1
  apply filter_mem_congr
  intro k hk
  rw [List.mem_cons]
  constructor
  · rintro (rfl | h')
    · exact absurd hk (head_not_mem ho hl)
    · exact h'
  · exact Or.inr

open Classical in
theorem diffS_lt (ho : TotalOrder cmp) (hr : Sorted cmp (y :: r)) (h : cmp x y < 0) :
    diffS (x :: l) (y :: r) = x :: diffS l (y :: r) := by
  unfold diffS
  rw [List.filter_cons, if_pos]
  simpa using not_mem_of_lt ho hr h

open Classical in
theorem diffS_gt (ho : TotalOrder cmp) (hl : Sorted cmp (x :: l)) (h : cmp y x < 0) :
    diffS (x :: l) (y :: r) = diffS (x :: l) r := by
  unfold diffS
  apply filter_mem_congr
  intro k hk
  rw [List.mem_cons, not_or]
  constructor
  · rintro ⟨_, h'⟩; exact h'
  · intro h'
    refine ⟨?_, h'⟩
    rintro rfl
    exact absurd hk (not_mem_of_lt ho hl h)

open Classical in
theorem diffS_eq (ho : TotalOrder cmp) (hl : Sorted cmp (x :: l)) : diffS (x :: l) (x :: r) = diffS l r := by
  unfold diffS
  rw [List.filter_cons, if_neg (by simp)]
  apply filter_mem_congr
  intro k hk
  rw [List.mem_cons, not_or]
  constructor
  · rintro ⟨_, h'⟩; exact h'
  · intro h'
    refine ⟨?_, h'⟩
    rintro rfl
    exact absurd hk (head_not_mem ho hl)

theorem interS_nil : interS l ([] : List K) = [] := by unfold interS; simp
theorem diffS_nil : diffS l ([] : List K) = l := by unfold diffS; simp
theorem nil_interS : interS ([] : List K) r = [] := rfl
theorem nil_diffS : diffS ([] : List K) r = [] := rfl
end steps

/-! ## The merge, on the remaining suffixes -/

/-- `merge` as a recursion on the two remaining suffixes. -/
def mergeL {σ ρ : Type} (cmp : K → K → Int) (c : Calls K σ ρ) : List K → List K → Nat → Nat → σ → σ ⊕ ρ
  | [], [], _, _, s => .inl s
  | x :: l, [], li, ri, s =>
    match c.left x li ri s with
    | .inr v => .inr v
    | .inl s' => mergeL cmp c l [] (li + 1) ri s'
  | [], y :: r, li, ri, s =>
    match c.right y li ri s with
    | .inr v => .inr v
    | .inl s' => mergeL cmp c [] r li (ri + 1) s'
  | x :: l, y :: r, li, ri, s =>
    if cmp x y = 0 then
      match c.both x li ri s with
      | .inr v => .inr v
      | .inl s' => mergeL cmp c l r (li + 1) (ri + 1) s'
    else if cmp x y < 0 then
      match c.left x li ri s with
      | .inr v => .inr v
      | .inl s' => mergeL cmp c l (y :: r) (li + 1) ri s'
    else
      match c.right y li ri s with
      | .inr v => .inr v
      | .inl s' => mergeL cmp c (x :: l) r li (ri + 1) s'
termination_by l r => l.length + r.length

theorem merge_eq {σ ρ : Type} (c : Calls K σ ρ) (l r : List K) (li ri : Nat) (s : σ) :
    merge cmp c l r li ri s = mergeL cmp c (l.drop li) (r.drop ri) li ri s := by
  fun_induction merge cmp c l r li ri s with
  | case1 li ri s hl hr h v hv =>
    rw [List.drop_eq_getElem_cons hl, List.drop_eq_getElem_cons hr, mergeL, if_pos h, hv]
  | case2 li ri s hl hr h s' hv ih =>
    rw [ih]; conv => rhs; rw [List.drop_eq_getElem_cons hl, List.drop_eq_getElem_cons hr, mergeL, if_pos h, hv]
  | case3 li ri s hl hr h h2 v hv =>
    rw [List.drop_eq_getElem_cons hl, List.drop_eq_getElem_cons hr, mergeL, if_neg h, if_pos h2, hv]
  | case4 li ri s hl hr h h2 s' hv ih =>
    rw [ih]; conv => rhs; rw [List.drop_eq_getElem_cons hl, List.drop_eq_getElem_cons hr, mergeL, if_neg h, if_pos h2, hv]
    rw [List.drop_eq_getElem_cons hr]
  | case5 li ri s hl hr h h2 v hv =>
    rw [List.drop_eq_getElem_cons hl, List.drop_eq_getElem_cons hr, mergeL, if_neg h, if_neg h2, hv]
  | case6 li ri s hl hr h h2 s' hv ih =>
    rw [ih]; conv => rhs; rw [List.drop_eq_getElem_cons hl, List.drop_eq_getElem_cons hr, mergeL, if_neg h, if_neg h2, hv]
    rw [List.drop_eq_getElem_cons hl]
  | case7 li ri s hl hr v hv =>
    rw [List.drop_eq_getElem_cons hl, List.drop_eq_nil_of_le (as := r) (by omega), mergeL, hv]
  | case8 li ri s hl hr s' hv ih =>
    rw [ih, List.drop_eq_getElem_cons hl, List.drop_eq_nil_of_le (as := r) (by omega)]
    conv => rhs; rw [mergeL, hv]
  | case9 li ri s hl hr v hv =>
    rw [List.drop_eq_getElem_cons hr, List.drop_eq_nil_of_le (as := l) (by omega), mergeL, hv]
  | case10 li ri s hl hr s' hv ih =>
    rw [ih, List.drop_eq_getElem_cons hr, List.drop_eq_nil_of_le (as := l) (by omega)]
    conv => rhs; rw [mergeL, hv]
  | case11 li ri s hl hr =>
    rw [List.drop_eq_nil_of_le (as := l) (by omega), List.drop_eq_nil_of_le (as := r) (by omega), mergeL]

theorem hasInter_aux (ho : TotalOrder cmp) (l r : List K) (li ri : Nat) (hl : Sorted cmp l) (hr : Sorted cmp r) :
    mergeL cmp hasInterCalls l r li ri () = .inr true ∧ (∃ k, k ∈ l ∧ k ∈ r) ∨
    mergeL cmp hasInterCalls l r li ri () = .inl () ∧ ¬ (∃ k, k ∈ l ∧ k ∈ r) := by
  induction hn : l.length + r.length using Nat.strongRecOn generalizing l r li ri with
  | ind n ih =>
    cases l with
    | nil =>
      right
      refine ⟨?_, by simp⟩
      clear ih hn
      induction r generalizing ri with
      | nil => rw [mergeL]
      | cons y r ih => rw [mergeL]; exact ih _ (List.pairwise_cons.1 hr).2
    | cons x l =>
      have hl' := (List.pairwise_cons.1 hl).2
      cases r with
      | nil =>
        rw [mergeL]
        rcases ih _ (by simp only [List.length_cons] at hn; omega) l [] (li + 1) ri hl' hr rfl with h | h
        · obtain ⟨_, k, _, hk⟩ := h; exact absurd hk (by simp)
        · right; exact ⟨h.1, by simp⟩
      | cons y r =>
        have hr' := (List.pairwise_cons.1 hr).2
        simp only [List.length_cons] at hn
        rw [mergeL]
        by_cases h0 : cmp x y = 0
        · rw [if_pos h0]
          left
          obtain rfl := (ho.eq_iff x y).1 h0
          exact ⟨rfl, x, by simp, by simp⟩
        · rw [if_neg h0]
          by_cases h1 : cmp x y < 0
          · rw [if_pos h1]
            have e : (∃ k, k ∈ x :: l ∧ k ∈ y :: r) ↔ (∃ k, k ∈ l ∧ k ∈ y :: r) := by
              constructor
              · rintro ⟨k, hk, hk'⟩
                rcases List.mem_cons.1 hk with rfl | hk
                · exact absurd hk' (not_mem_of_lt ho hr h1)
                · exact ⟨k, hk, hk'⟩
              · rintro ⟨k, hk, hk'⟩; exact ⟨k, by simp [hk], hk'⟩
            rw [e]
            exact ih _ (by simp only [List.length_cons]; omega) l (y :: r) (li + 1) ri hl' hr rfl
          · rw [if_neg h1]
            have h2 := gt_of ho h0 h1
            have e : (∃ k, k ∈ x :: l ∧ k ∈ y :: r) ↔ (∃ k, k ∈ x :: l ∧ k ∈ r) := by
              constructor
              · rintro ⟨k, hk, hk'⟩
                rcases List.mem_cons.1 hk' with rfl | hk'
                · exact absurd hk (not_mem_of_lt ho hl h2)
                · exact ⟨k, hk, hk'⟩
              · rintro ⟨k, hk, hk'⟩; exact ⟨k, hk, by simp [hk']⟩
            rw [e]
            exact ih _ (by simp only [List.length_cons]; omega) (x :: l) r li (ri + 1) hl hr' rfl

/-- `has_inter` is "the sets meet". -/
theorem C19_hasInter (ho : TotalOrder cmp) {l r : List K} {S T : Set K} (hl : Rep cmp l S) (hr : Rep cmp r T) :
    hasInter cmp l r = true ↔ (S ∩ T).Nonempty := by
  have e : (S ∩ T).Nonempty ↔ ∃ k, k ∈ l ∧ k ∈ r := by
    constructor
    · rintro ⟨k, a, b⟩; exact ⟨k, (hl.mem k).2 a, (hr.mem k).2 b⟩
    · rintro ⟨k, a, b⟩; exact ⟨k, (hl.mem k).1 a, (hr.mem k).1 b⟩
  unfold hasInter
  rw [merge_eq, List.drop_zero, List.drop_zero, e]
  rcases hasInter_aux ho l r 0 0 hl.sorted hr.sorted with ⟨h1, h2⟩ | ⟨h1, h2⟩
  · rw [h1]; simp [h2]
  · rw [h1]; simp only [Bool.false_eq_true, false_iff]; exact h2

/-- The callbacks of `misses_some`. -/
def missCalls : Calls K Unit Bool := ⟨fun _ _ _ s => .inl s, fun _ _ _ s => .inl s, fun _ _ _ _ => .inr true⟩

theorem missesSome_aux (ho : TotalOrder cmp) (l r : List K) (li ri : Nat) (hl : Sorted cmp l) (hr : Sorted cmp r) :
    mergeL cmp missCalls l r li ri () = .inr true ∧ (∃ k, k ∉ l ∧ k ∈ r) ∨
    mergeL cmp missCalls l r li ri () = .inl () ∧ ¬ (∃ k, k ∉ l ∧ k ∈ r) := by
  induction hn : l.length + r.length using Nat.strongRecOn generalizing l r li ri with
  | ind n ih =>
    cases r with
    | nil =>
      right
      refine ⟨?_, by simp⟩
      clear ih hn
      induction l generalizing li with
      | nil => rw [mergeL]
      | cons y r ih => rw [mergeL]; exact ih _ (List.pairwise_cons.1 hl).2
    | cons y r =>
      have hr' := (List.pairwise_cons.1 hr).2
      cases l with
      | nil =>
        left
        rw [mergeL]
        exact ⟨rfl, y, by simp, by simp⟩
      | cons x l =>
        have hl' := (List.pairwise_cons.1 hl).2
        simp only [List.length_cons] at hn
        rw [mergeL]
        by_cases h0 : cmp x y = 0
        · rw [if_pos h0]
          obtain rfl := (ho.eq_iff x y).1 h0
          have e : (∃ k, k ∉ x :: l ∧ k ∈ x :: r) ↔ (∃ k, k ∉ l ∧ k ∈ r) := by
            constructor
            · rintro ⟨k, hk, hk'⟩
              rw [List.mem_cons, not_or] at hk
              exact ⟨k, hk.2, (List.mem_cons.1 hk').resolve_left hk.1⟩
            · rintro ⟨k, hk, hk'⟩
              refine ⟨k, ?_, by simp [hk']⟩
              rw [List.mem_cons, not_or]
              exact ⟨fun e => head_not_mem ho hr (e ▸ hk'), hk⟩
          rw [e]
          exact ih _ (by omega) l r (li + 1) (ri + 1) hl' hr' rfl
        · rw [if_neg h0]
          by_cases h1 : cmp x y < 0
          · rw [if_pos h1]
            have e : (∃ k, k ∉ x :: l ∧ k ∈ y :: r) ↔ (∃ k, k ∉ l ∧ k ∈ y :: r) := by
              constructor
              · rintro ⟨k, hk, hk'⟩
                rw [List.mem_cons, not_or] at hk
                exact ⟨k, hk.2, hk'⟩
              · rintro ⟨k, hk, hk'⟩
                refine ⟨k, ?_, hk'⟩
                rw [List.mem_cons, not_or]
                exact ⟨fun e => not_mem_of_lt ho hr h1 (e ▸ hk'), hk⟩
            rw [e]
            exact ih _ (by simp only [List.length_cons]; omega) l (y :: r) (li + 1) ri hl' hr rfl
          · rw [if_neg h1]
            left
            exact ⟨rfl, y, not_mem_of_lt ho hl (gt_of ho h0 h1), by simp⟩

/-- `l.misses_some(from: r)` is "some member of `r` is not in `l`". -/
theorem C19_missesSome (ho : TotalOrder cmp) {l r : List K} {S T : Set K} (hl : Rep cmp l S) (hr : Rep cmp r T) :
    missesSome cmp l r = true ↔ ¬ T ⊆ S := by
  have e : ¬ T ⊆ S ↔ ∃ k, k ∉ l ∧ k ∈ r := by
    rw [Set.not_subset]
    constructor
    · rintro ⟨k, a, b⟩; exact ⟨k, fun h => b ((hl.mem k).1 h), (hr.mem k).2 a⟩
    · rintro ⟨k, a, b⟩; exact ⟨k, (hr.mem k).1 b, fun h => a ((hl.mem k).2 h)⟩
  unfold missesSome
  rw [merge_eq, List.drop_zero, List.drop_zero, e]
  rcases missesSome_aux ho l r 0 0 hl.sorted hr.sorted with ⟨h1, h2⟩ | ⟨h1, h2⟩
  · unfold missCalls at h1; rw [h1]; simp [h2]
  · unfold missCalls at h1; rw [h1]; simp only [Bool.false_eq_true, false_iff]; exact h2

/-! ## inter, union, diff: copy on write -/

/-- What `(useResult, result)` stands for when the merge has consumed `n` items of the list that may be returned as is. -/
def soFar (whole : List K) (n : Nat) (s : Bool × List K) : List K := if s.1 then s.2 else whole.take n

theorem take_succ_of_drop {whole : List K} {n : Nat} {x : K} {l : List K} (h : whole.drop n = x :: l) :
    whole.take (n + 1) = whole.take n ++ [x] ∧ whole.drop (n + 1) = l := by
  have hn : n < whole.length := by
    by_contra hc
    rw [List.drop_eq_nil_of_le (by omega)] at h
    exact absurd h (by simp)
  rw [List.drop_eq_getElem_cons hn] at h
  injection h with h1 h2
  exact ⟨by rw [List.take_succ_eq_append_getElem hn, h1], h2⟩

theorem pick_nil {whole : List K} {n : Nat} (h : whole.drop n = []) (s : Bool × List K) :
    pick whole (.inl s) = soFar whole n s := by
  unfold pick soFar
  have : whole.take n = whole := List.take_of_length_le (by simpa using h)
  rw [this]

theorem inter_aux (ho : TotalOrder cmp) (whole l r : List K) (li ri : Nat) (s : Bool × List K)
    (hw : whole.drop li = l) (hl : Sorted cmp l) (hr : Sorted cmp r) :
    pick whole (mergeL cmp (interCalls whole) l r li ri s) = soFar whole li s ++ interS l r := by
  induction hn : l.length + r.length using Nat.strongRecOn generalizing l r li ri s with
  | ind n ih =>
    cases l with
    | nil =>
      rw [nil_interS, List.append_nil]
      cases r with
      | nil => rw [mergeL, pick_nil hw]
      | cons y r =>
        rw [mergeL]
        have := ih _ (by simp only [List.length_cons] at hn; omega) [] r li (ri + 1) s hw hl (List.pairwise_cons.1 hr).2 rfl
        rw [nil_interS, List.append_nil] at this
        exact this
    | cons x l =>
      have hl' := (List.pairwise_cons.1 hl).2
      obtain ⟨t1, t2⟩ := take_succ_of_drop hw
      have hleft : soFar whole (li + 1) (if s.1 then s else (true, whole.take li)) = soFar whole li s := by
        unfold soFar; cases h : s.1 <;> simp [h]
      have hboth : soFar whole (li + 1) (if s.1 then (true, s.2 ++ [x]) else s) = soFar whole li s ++ [x] := by
        unfold soFar; cases h : s.1 <;> simp [h, t1]
      cases r with
      | nil =>
        rw [mergeL]
        have := ih _ (by simp only [List.length_cons] at hn; omega) l [] (li + 1) ri (if s.1 then s else (true, whole.take li)) t2 hl' hr rfl
        rw [interS_nil, hleft] at this
        rw [interS_nil]
        exact this
      | cons y r =>
        have hr' := (List.pairwise_cons.1 hr).2
        simp only [List.length_cons] at hn
        rw [mergeL]
        by_cases h0 : cmp x y = 0
        · rw [if_pos h0]
          obtain rfl := (ho.eq_iff x y).1 h0
          have := ih _ (by omega) l r (li + 1) (ri + 1) (if s.1 then (true, s.2 ++ [x]) else s) t2 hl' hr' rfl
          rw [hboth] at this
          rw [interS_eq ho hl, List.append_cons]
          exact this
        · rw [if_neg h0]
          by_cases h1 : cmp x y < 0
          · rw [if_pos h1, interS_lt ho hr h1]
            have := ih _ (by simp only [List.length_cons]; omega) l (y :: r) (li + 1) ri (if s.1 then s else (true, whole.take li)) t2 hl' hr rfl
            rw [hleft] at this
            exact this
          · rw [if_neg h1, interS_gt ho hl (gt_of ho h0 h1)]
            exact ih _ (by simp only [List.length_cons]; omega) (x :: l) r li (ri + 1) s hw hl hr' rfl

theorem C19_inter (ho : TotalOrder cmp) {l r : List K} {S T : Set K} (hl : Rep cmp l S) (hr : Rep cmp r T) :
    Rep cmp (inter cmp l r) (S ∩ T) := by
  unfold inter
  split
  · rw [merge_eq, List.drop_zero, List.drop_zero, inter_aux ho r r l 0 0 _ (by simp) hr.sorted hl.sorted]
    refine ⟨interS_sorted hr.sorted, fun k => ?_⟩
    show k ∈ interS r l ↔ _
    rw [mem_interS, hl.mem, hr.mem, Set.mem_inter_iff, and_comm]
  · rw [merge_eq, List.drop_zero, List.drop_zero, inter_aux ho l l r 0 0 _ (by simp) hl.sorted hr.sorted]
    refine ⟨interS_sorted hl.sorted, fun k => ?_⟩
    show k ∈ interS l r ↔ _
    rw [mem_interS, hl.mem, hr.mem, Set.mem_inter_iff]

theorem union_aux (whole l r : List K) (li ri : Nat) (s : Bool × List K)
    (hw : whole.drop li = l) (hs : s.1 = false → s.2 = []) :
    pick whole (mergeL cmp (unionCalls whole) l r li ri s) = soFar whole li s ++ unionS cmp l r := by
  induction hn : l.length + r.length using Nat.strongRecOn generalizing l r li ri s with
  | ind n ih =>
    have hright : ∀ y, soFar whole li (if s.1 then (true, s.2 ++ [y]) else (true, s.2 ++ whole.take li ++ [y])) =
        soFar whole li s ++ [y] := by
      intro y; unfold soFar; cases h : s.1 <;> simp; simp [hs h]
    have hright' : ∀ y, (if s.1 then (true, s.2 ++ [y]) else (true, s.2 ++ whole.take li ++ [y])).1 = false →
        (if s.1 then (true, s.2 ++ [y]) else (true, s.2 ++ whole.take li ++ [y])).2 = [] := by
      intro y; cases h : s.1 <;> simp
    cases l with
    | nil =>
      cases r with
      | nil => rw [mergeL, pick_nil hw]; simp [unionS]
      | cons y r =>
        rw [mergeL]
        have := ih _ (by simp only [List.length_cons] at hn; omega) [] r li (ri + 1) _ hw (hright' y) rfl
        rw [hright] at this
        rw [nil_unionS] at this ⊢
        rw [List.append_cons]
        exact this
    | cons x l =>
      obtain ⟨t1, t2⟩ := take_succ_of_drop hw
      have hleft : soFar whole (li + 1) (if s.1 then (true, s.2 ++ [x]) else s) = soFar whole li s ++ [x] := by
        unfold soFar; cases h : s.1 <;> simp [h, t1]
      have hleft' : (if s.1 then (true, s.2 ++ [x]) else s).1 = false → (if s.1 then (true, s.2 ++ [x]) else s).2 = [] := by
        cases h : s.1
        · simp [hs h]
        · simp
      cases r with
      | nil =>
        rw [mergeL]
        have := ih _ (by simp only [List.length_cons] at hn; omega) l [] (li + 1) ri _ t2 hleft' rfl
        rw [unionS_nil, hleft] at this
        rw [unionS_nil, List.append_cons]
        exact this
      | cons y r =>
        simp only [List.length_cons] at hn
        rw [mergeL, unionS]
        by_cases h0 : cmp x y = 0
        · rw [if_pos h0, if_pos h0]
          have := ih _ (by omega) l r (li + 1) (ri + 1) _ t2 hleft' rfl
          rw [hleft] at this
          rw [List.append_cons]
          exact this
        · rw [if_neg h0, if_neg h0]
          by_cases h1 : cmp x y < 0
          · rw [if_pos h1, if_pos h1]
            have := ih _ (by simp only [List.length_cons]; omega) l (y :: r) (li + 1) ri _ t2 hleft' rfl
            rw [hleft] at this
            rw [List.append_cons]
            exact this
          · rw [if_neg h1, if_neg h1]
            have := ih _ (by simp only [List.length_cons]; omega) (x :: l) r li (ri + 1) _ hw (hright' y) rfl
            rw [hright] at this
            rw [List.append_cons]
            exact this

theorem C19_union (ho : TotalOrder cmp) {l r : List K} {S T : Set K} (hl : Rep cmp l S) (hr : Rep cmp r T) :
    Rep cmp (union cmp l r) (S ∪ T) := by
  unfold union
  split
  · rw [merge_eq, List.drop_zero, List.drop_zero, union_aux r r l 0 0 _ (by simp) (by simp)]
    refine ⟨unionS_sorted ho _ _ hr.sorted hl.sorted, fun k => ?_⟩
    show k ∈ unionS cmp r l ↔ _
    rw [mem_unionS ho, hl.mem, hr.mem, Set.mem_union, or_comm]
  · rw [merge_eq, List.drop_zero, List.drop_zero, union_aux l l r 0 0 _ (by simp) (by simp)]
    refine ⟨unionS_sorted ho _ _ hl.sorted hr.sorted, fun k => ?_⟩
    show k ∈ unionS cmp l r ↔ _
    rw [mem_unionS ho, hl.mem, hr.mem, Set.mem_union]

theorem diff_aux (ho : TotalOrder cmp) (whole l r : List K) (li ri : Nat) (s : Bool × List K)
    (hw : whole.drop ri = r) (hl : Sorted cmp l) (hr : Sorted cmp r) :
    pick whole (mergeL cmp (diffCalls whole) l r li ri s) = soFar whole ri s ++ diffS r l := by
  induction hn : l.length + r.length using Nat.strongRecOn generalizing l r li ri s with
  | ind n ih =>
    have hleft : soFar whole ri (if s.1 then s else (true, whole.take ri)) = soFar whole ri s := by
      unfold soFar; cases h : s.1 <;> simp [h]
    cases r with
    | nil =>
      rw [nil_diffS, List.append_nil]
      cases l with
      | nil => rw [mergeL, pick_nil hw]
      | cons x l =>
        rw [mergeL]
        have := ih _ (by simp only [List.length_cons] at hn; omega) l [] (li + 1) ri (if s.1 then s else (true, whole.take ri)) hw
          (List.pairwise_cons.1 hl).2 hr rfl
        rw [nil_diffS, List.append_nil, hleft] at this
        exact this
    | cons y r =>
      have hr' := (List.pairwise_cons.1 hr).2
      obtain ⟨t1, t2⟩ := take_succ_of_drop hw
      have hboth : soFar whole (ri + 1) (if s.1 then s else (true, whole.take ri)) = soFar whole ri s := by
        unfold soFar; cases h : s.1 <;> simp [h]
      have hright : soFar whole (ri + 1) (if s.1 then (true, s.2 ++ [y]) else s) = soFar whole ri s ++ [y] := by
        unfold soFar; cases h : s.1 <;> simp [h, t1]
      cases l with
      | nil =>
        rw [mergeL, diffS_nil]
        have := ih _ (by simp only [List.length_cons] at hn; omega) [] r li (ri + 1) (if s.1 then (true, s.2 ++ [y]) else s) t2 hl hr' rfl
        rw [diffS_nil, hright] at this
        rw [List.append_cons]
        exact this
      | cons x l =>
        have hl' := (List.pairwise_cons.1 hl).2
        simp only [List.length_cons] at hn
        rw [mergeL]
        by_cases h0 : cmp x y = 0
        · rw [if_pos h0]
          obtain rfl := (ho.eq_iff x y).1 h0
          have := ih _ (by omega) l r (li + 1) (ri + 1) (if s.1 then s else (true, whole.take ri)) t2 hl' hr' rfl
          rw [hboth] at this
          rw [diffS_eq ho hr]
          exact this
        · rw [if_neg h0]
          by_cases h1 : cmp x y < 0
          · rw [if_pos h1, diffS_gt ho hr h1]
            have := ih _ (by simp only [List.length_cons]; omega) l (y :: r) (li + 1) ri (if s.1 then s else (true, whole.take ri)) hw hl' hr rfl
            rw [hleft] at this
            exact this
          · rw [if_neg h1, diffS_lt ho hl (gt_of ho h0 h1)]
            have := ih _ (by simp only [List.length_cons]; omega) (x :: l) r li (ri + 1) (if s.1 then (true, s.2 ++ [y]) else s) t2 hl hr' rfl
            rw [hright] at this
            rw [List.append_cons]
            exact this

theorem C19_diff (ho : TotalOrder cmp) {l r : List K} {S T : Set K} (hl : Rep cmp l S) (hr : Rep cmp r T) :
    Rep cmp (diff cmp l r) (S \ T) := by
  unfold diff
  rw [merge_eq, List.drop_zero, List.drop_zero, diff_aux ho l r l 0 0 _ (by simp) hr.sorted hl.sorted]
  refine ⟨diffS_sorted hl.sorted, fun k => ?_⟩
  show k ∈ diffS l r ↔ _
  rw [mem_diffS, hl.mem, hr.mem, Set.mem_sdiff]

/-! ## The in-place forms -/

theorem get_split {pre A : List K} {x : K} (h : pre.length < (pre ++ x :: A).length) : (pre ++ x :: A)[pre.length]'h = x := by simp

theorem addAll_aux (b pre A : List K) (y : Nat) :
    addAllLoop cmp (pre ++ A) b pre.length y = pre ++ unionS cmp A (b.drop y) := by
  induction hn : A.length + (b.length - y) using Nat.strongRecOn generalizing pre A y with
  | ind n ih =>
    rw [addAllLoop]
    cases A with
    | nil =>
      rw [dif_neg (by simp), nil_unionS]
      split
      · simp
      · next h => rw [List.drop_eq_nil_of_le (by omega)]
    | cons x A =>
      have hcons : pre ++ x :: A = (pre ++ [x]) ++ A := by simp
      by_cases hy : y < b.length
      · rw [dif_pos ⟨by simp, hy⟩, List.drop_eq_getElem_cons hy, unionS]
        simp only [get_split]
        simp only [List.length_cons] at hn
        by_cases h0 : cmp x b[y] = 0
        · rw [if_pos (by omega), if_neg (by omega), if_pos h0, hcons]
          have := ih _ (by omega) (pre ++ [x]) A (y + 1) rfl
          rw [List.length_append] at this
          simp only [List.length_cons, List.length_nil] at this
          rw [this]; simp
        · rw [if_neg h0]
          by_cases h1 : cmp x b[y] < 0
          · rw [if_neg (by omega), if_pos h1, hcons]
            have := ih _ (by omega) (pre ++ [x]) A y rfl
            rw [List.length_append, List.drop_eq_getElem_cons hy] at this
            simp only [List.length_cons, List.length_nil] at this
            rw [this]; simp
          · rw [if_pos (by omega), if_pos (by omega), if_neg h1]
            have hi : insertAt (pre ++ x :: A) pre.length b[y] = (pre ++ [b[y]]) ++ x :: A := by
              unfold insertAt; simp
            rw [hi]
            have := ih _ (by simp; omega) (pre ++ [b[y]]) (x :: A) (y + 1) rfl
            rw [List.length_append] at this
            simp only [List.length_cons, List.length_nil] at this
            rw [this]; simp
      · rw [dif_neg (by omega), if_neg hy, List.drop_eq_nil_of_le (by omega), unionS_nil]

/-- `add(ref a, b)` is union in place. -/
theorem C19_addAll (ho : TotalOrder cmp) {a b : List K} {S T : Set K} (ha : Rep cmp a S) (hb : Rep cmp b T) :
    Rep cmp (addAll cmp a b) (S ∪ T) := by
  have : addAll cmp a b = unionS cmp a b := by unfold addAll; simpa using addAll_aux b [] a 0
  rw [this]
  exact ⟨unionS_sorted ho _ _ ha.sorted hb.sorted, fun k => by rw [mem_unionS ho, ha.mem, hb.mem, Set.mem_union]⟩

theorem splice_split (pre A : List K) (x : K) : spliceAt (pre ++ x :: A) pre.length = pre ++ A := by
  unfold spliceAt; simp

theorem keep_aux (ho : TotalOrder cmp) (b pre A : List K) (y : Nat) (hA : Sorted cmp A) (hb : Sorted cmp (b.drop y)) :
    keepLoop cmp (pre ++ A) b pre.length y = pre ++ interS A (b.drop y) := by
  induction hn : A.length + (b.length - y) using Nat.strongRecOn generalizing pre A y with
  | ind n ih =>
    rw [keepLoop]
    cases A with
    | nil => rw [dif_neg (by simp), if_neg (by simp), nil_interS]
    | cons x A =>
      have hA' := (List.pairwise_cons.1 hA).2
      have hcons : pre ++ x :: A = (pre ++ [x]) ++ A := by simp
      by_cases hy : y < b.length
      · rw [dif_pos ⟨by simp, hy⟩]
        rw [List.drop_eq_getElem_cons hy] at hb ⊢
        have hb' := (List.pairwise_cons.1 hb).2
        simp only [get_split]
        simp only [List.length_cons] at hn
        by_cases h0 : cmp x b[y] = 0
        · rw [if_pos h0, hcons]
          have := ih _ (by omega) (pre ++ [x]) A (y + 1) hA' hb' rfl
          rw [List.length_append] at this
          simp only [List.length_cons, List.length_nil] at this
          rw [this, ← (ho.eq_iff _ _).1 h0, interS_eq ho hA]; simp
        · rw [if_neg h0]
          by_cases h1 : cmp x b[y] < 0
          · rw [if_neg (by omega), splice_split, interS_lt ho hb h1]
            have := ih _ (by omega) pre A y hA' (by rwa [List.drop_eq_getElem_cons hy]) rfl
            rw [this, List.drop_eq_getElem_cons hy]
          · rw [if_pos (by omega), interS_gt ho hA (gt_of ho h0 h1)]
            exact ih _ (by simp; omega) pre (x :: A) (y + 1) hA hb' rfl
      · rw [dif_neg (by omega), if_pos (by simp), List.drop_eq_nil_of_le (by omega), interS_nil]
        simp

/-- `keep(ref a, b)` is intersection in place. -/
theorem C19_keep (ho : TotalOrder cmp) {a b : List K} {S T : Set K} (ha : Rep cmp a S) (hb : Rep cmp b T) :
    Rep cmp (keep cmp a b) (S ∩ T) := by
  have : keep cmp a b = interS a b := by unfold keep; simpa using keep_aux ho b [] a 0 ha.sorted (by simpa using hb.sorted)
  rw [this]
  exact ⟨interS_sorted ha.sorted, fun k => by rw [mem_interS, ha.mem, hb.mem, Set.mem_inter_iff]⟩

theorem removeAll_aux (ho : TotalOrder cmp) (b pre A : List K) (y : Nat) (hA : Sorted cmp A) (hb : Sorted cmp (b.drop y)) :
    removeLoop cmp (pre ++ A) b pre.length y = pre ++ diffS A (b.drop y) := by
  induction hn : A.length + (b.length - y) using Nat.strongRecOn generalizing pre A y with
  | ind n ih =>
    rw [removeLoop]
    cases A with
    | nil => rw [dif_neg (by simp), nil_diffS]
    | cons x A =>
      have hA' := (List.pairwise_cons.1 hA).2
      have hcons : pre ++ x :: A = (pre ++ [x]) ++ A := by simp
      by_cases hy : y < b.length
      · rw [dif_pos ⟨by simp, hy⟩]
        rw [List.drop_eq_getElem_cons hy] at hb ⊢
        have hb' := (List.pairwise_cons.1 hb).2
        simp only [get_split]
        simp only [List.length_cons] at hn
        by_cases h0 : cmp x b[y] = 0
        · rw [if_pos h0, splice_split, ← (ho.eq_iff _ _).1 h0, diffS_eq ho hA]
          exact ih _ (by omega) pre A (y + 1) hA' hb' rfl
        · rw [if_neg h0]
          by_cases h1 : cmp x b[y] < 0
          · rw [if_neg (by omega), diffS_lt ho hb h1, hcons]
            have := ih _ (by omega) (pre ++ [x]) A y hA' (by rwa [List.drop_eq_getElem_cons hy]) rfl
            rw [List.length_append] at this
            simp only [List.length_cons, List.length_nil] at this
            rw [this, List.drop_eq_getElem_cons hy]; simp
          · rw [if_pos (by omega), diffS_gt ho hA (gt_of ho h0 h1)]
            exact ih _ (by simp; omega) pre (x :: A) (y + 1) hA hb' rfl
      · rw [dif_neg (by omega), List.drop_eq_nil_of_le (by omega), diffS_nil]

/-- `remove(ref a, b)` is difference in place. -/
theorem C19_removeAll (ho : TotalOrder cmp) {a b : List K} {S T : Set K} (ha : Rep cmp a S) (hb : Rep cmp b T) :
    Rep cmp (removeAll cmp a b) (S \ T) := by
  have : removeAll cmp a b = diffS a b := by unfold removeAll; simpa using removeAll_aux ho b [] a 0 ha.sorted (by simpa using hb.sorted)
  rw [this]
  exact ⟨diffS_sorted ha.sorted, fun k => by rw [mem_diffS, ha.mem, hb.mem, Set.mem_sdiff]⟩

example : inter Verif.Prelude.cmpPrim [1, 3, 5, 7] [3, 4, 7] = [3, 7] := by decide +kernel
example : union Verif.Prelude.cmpPrim [1, 3] [2, 3, 9] = [1, 2, 3, 9] := by decide +kernel
example : diff Verif.Prelude.cmpPrim [1, 3, 5] [0, 3] = [1, 5] := by decide +kernel
example : Rep Verif.Prelude.cmpPrim [1, 3, 5] {1, 3, 5} := ⟨by unfold Sorted; decide, by intro k; simp⟩

end Verif.Flat
