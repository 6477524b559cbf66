import Verif.Prelude
/-!
# Substring search finds the first occurrence (C10)
-/
namespace Verif.Prelude
open Verif

variable {α : Type}

/-- Specification: `n` occurs in `h` at index `k`. -/
def Occurs (h n : List α) (k : Nat) : Prop := ∃ p q, h = p ++ n ++ q ∧ p.length = k

/-- Specification: `r` is the least index at which `n` occurs in `h`, or -1 when there is none. -/
def IsFirst (h n : List α) (r : Int) : Prop :=
  (r = -1 ∧ ∀ k, ¬ Occurs h n k) ∨ (∃ k : Nat, r = k ∧ Occurs h n k ∧ ∀ j < k, ¬ Occurs h n j)

theorem occurs_iff (h n : List α) (k : Nat) :
    Occurs h n k ↔ k + n.length ≤ h.length ∧ ∀ j < n.length, h[k + j]? = n[j]? := by
  constructor
  · rintro ⟨p, q, rfl, rfl⟩
    refine ⟨by simp only [List.length_append]; omega, fun j hj => ?_⟩
    rw [List.append_assoc, List.getElem?_append_right (by omega), Nat.add_sub_cancel_left,
      List.getElem?_append_left hj]
  · rintro ⟨hk, hj⟩
    refine ⟨h.take k, (h.drop k).drop n.length, ?_, by rw [List.length_take]; omega⟩
    have hn : n = (h.drop k).take n.length := by
      apply List.ext_getElem?
      intro j
      by_cases hlt : j < n.length
      · rw [List.getElem?_take_of_lt hlt, List.getElem?_drop, hj j hlt]
      · rw [List.getElem?_eq_none (by omega), List.getElem?_eq_none (by rw [List.length_take]; omega)]
    conv => rhs; rw [List.append_assoc]; rhs; lhs; rw [hn]
    rw [List.take_append_drop, List.take_append_drop]

theorem isFirst_unique {h n : List α} {r r' : Int} (a : IsFirst h n r) (b : IsFirst h n r') : r = r' := by
  rcases a with ⟨e, a⟩ | ⟨k, e, o, m⟩ <;> rcases b with ⟨e', b⟩ | ⟨k', e', o', m'⟩
  · omega
  · exact absurd o' (a _)
  · exact absurd o (b _)
  · have : ¬ k < k' := fun hlt => m' _ hlt o
    have : ¬ k' < k := fun hlt => m _ hlt o'
    omega

section
variable [DecidableEq α]

theorem findItem_first (h : List α) (c : α) : ∃ r, findItem h c = some r ∧ IsFirst h [c] r := by
  unfold findItem
  have := forBrk_inv (lo := 0) (hi := h.length) (s := ())
    (body := fun i () => do let x ← h[i]?; some (if x = c then (.inr i : Unit ⊕ Nat) else .inl ()))
    (P := fun i _ => ∀ j < i, ¬ Occurs h [c] j)
    (Q := fun r => Occurs h [c] r ∧ ∀ j < r, ¬ Occurs h [c] j)
    (Nat.zero_le _) (fun j hj => absurd hj (Nat.not_lt_zero _))
    (fun k s _ hk hP => by
      have hg : h[k]? = some h[k] := List.getElem?_eq_getElem hk
      by_cases hc : h[k] = c
      · right
        refine ⟨k, by simp [hg, hc], ?_, hP⟩
        rw [occurs_iff]
        refine ⟨by simp; omega, fun j hj => ?_⟩
        have : j = 0 := by simpa using hj
        subst this; simp [hg, hc]
      · left
        refine ⟨(), by simp [hg, hc], fun j hj => ?_⟩
        by_cases e : j = k
        · subst e
          rw [occurs_iff]
          rintro ⟨-, h2⟩
          have := h2 0 (by simp)
          simp [hg] at this
          exact hc this
        · exact hP j (by omega))
  rcases this with ⟨s, e, hP⟩ | ⟨r, e, hQ⟩
  · refine ⟨-1, by rw [e]; rfl, Or.inl ⟨rfl, fun k => ?_⟩⟩
    by_cases hk : k < h.length
    · exact hP k hk
    · rw [occurs_iff]; rintro ⟨h1, -⟩; simp at h1; omega
  · exact ⟨r, by rw [e]; rfl, Or.inr ⟨r, rfl, hQ⟩⟩

theorem scan_spec (h : List α) (c : α) (i : Nat) (hi : i < h.length) :
    (scan h c i = some none ∧ ∀ j, i ≤ j → (hj : j < h.length) → h[j] ≠ c) ∨
    (∃ r, ∃ hr : r < h.length, scan h c i = some (some r) ∧ i ≤ r ∧ h[r] = c ∧ ∀ j, i ≤ j → (hj : j < r) → h[j] ≠ c) := by
  induction hn : h.length - i generalizing i with
  | zero => omega
  | succ n ih =>
    unfold scan
    rw [dif_pos hi]
    by_cases hc : h[i] = c
    · right; refine ⟨i, hi, by simp [hc], Nat.le_refl _, hc, fun j h1 h2 => by omega⟩
    · rw [if_neg hc]
      by_cases hl : i + 1 = h.length
      · left; refine ⟨by simp [hl], fun j h1 h2 => ?_⟩
        have : j = i := by omega
        subst this; exact hc
      · rw [if_neg hl]
        rcases ih (i + 1) (by omega) (by omega) with ⟨e, h1⟩ | ⟨r, hr, e, h1, h2, h3⟩
        · left; refine ⟨e, fun j hj hj' => ?_⟩
          by_cases ej : j = i
          · subst ej; exact hc
          · exact h1 j (by omega) hj'
        · right; refine ⟨r, hr, e, by omega, h2, fun j hj hj' => ?_⟩
          by_cases ej : j = i
          · subst ej; exact hc
          · exact h3 j (by omega) hj'

theorem matchRest_spec (h n : List α) (base m1 j : Nat) (hm : m1 + 1 = n.length) (hb : base + m1 < h.length) (hj : j < m1)
    (hpre : ∀ k < j, h[base + k]? = n[k]?) :
    (matchRest h n base m1 j = some true ∧ ∀ k < m1, h[base + k]? = n[k]?) ∨
    (matchRest h n base m1 j = some false ∧ ∃ k < m1, h[base + k]? ≠ n[k]?) := by
  induction hn : m1 - j generalizing j with
  | zero => omega
  | succ d ih =>
    unfold matchRest
    have hjn : j < n.length := by omega
    have hh : h[base + j]? = some h[base + j] := List.getElem?_eq_getElem (by omega)
    have hnn : n[j]? = some n[j] := List.getElem?_eq_getElem hjn
    rw [dif_pos hjn, hh]
    simp only [Option.bind_eq_bind, Option.bind_some]
    by_cases hc : h[base + j] = n[j]
    · rw [if_neg (by simpa using hc)]
      have hpre' : ∀ k < j + 1, h[base + k]? = n[k]? := by
        intro k hk
        by_cases e : k = j
        · subst e; rw [hh, hnn, hc]
        · exact hpre k (by omega)
      by_cases hl : j + 1 = m1
      · left; rw [if_pos hl]; exact ⟨rfl, hl ▸ hpre'⟩
      · rw [if_neg hl]; exact ih (j + 1) (by omega) hpre' (by omega)
    · right; rw [if_pos hc]
      refine ⟨rfl, j, hj, ?_⟩
      rw [hh, hnn]; simpa using hc

/-- The distance `skip` from the last item of `n` back to its previous occurrence in `n`. -/
def SkipOk (n : List α) (m1 : Nat) (c : α) (skip : Nat) : Prop :=
  0 < skip ∧ skip ≤ n.length ∧ ∀ d, 0 < d → d < skip → d ≤ m1 → n[m1 - d]? ≠ some c

theorem skipScan_spec (n : List α) (m1 : Nat) (c : α) (hm : m1 + 1 = n.length) (j : Nat) (hj : j ≤ m1)
    (hpre : ∀ k, j ≤ k → k < m1 → n[k]? ≠ some c) : ∃ s, skipScan n m1 c j = some s ∧ SkipOk n m1 c s := by
  induction j with
  | zero =>
    refine ⟨n.length, rfl, by omega, Nat.le_refl _, fun d h0 h1 h2 => hpre _ (Nat.zero_le _) (by omega)⟩
  | succ j ih =>
    have hg : n[j]? = some n[j] := List.getElem?_eq_getElem (by omega)
    unfold skipScan
    rw [hg]
    simp only [Option.bind_eq_bind, Option.bind_some]
    by_cases hc : n[j] = c
    · rw [if_pos hc]
      refine ⟨_, rfl, by omega, by omega, fun d h0 h1 h2 => hpre _ (by omega) (by omega)⟩
    · rw [if_neg hc]
      refine ih (by omega) (fun k h1 h2 => ?_)
      by_cases e : k = j
      · subst e; rw [hg]; simpa using hc
      · exact hpre k (by omega) h2

theorem findLoop_first (h n : List α) (m1 : Nat) (c : α) (hm : m1 + 1 = n.length) (h1 : 0 < m1) (hc : n[m1]? = some c)
    (skip i : Nat) (hs : skip = 0 ∨ SkipOk n m1 c skip) (hi : m1 ≤ i)
    (hno : ∀ k, k + m1 < i → ¬ Occurs h n k) :
    ∃ r, findLoop h n m1 c skip i = some r ∧ IsFirst h n r := by
  induction hn : h.length - i using Nat.strongRecOn generalizing i skip with
  | _ d ih =>
    unfold findLoop
    by_cases hlt : i < h.length
    · rw [if_pos hlt]
      have occ_last : ∀ k, Occurs h n k → h[k + m1]? = some c := by
        intro k ho
        rw [occurs_iff] at ho
        rw [ho.2 m1 (by omega), hc]
      have notocc : ∀ k x, (hx : k + m1 < h.length) → h[k + m1] ≠ c → x = k → ¬ Occurs h n x := by
        rintro k x hx hne rfl ho
        have := occ_last _ ho
        rw [List.getElem?_eq_getElem hx] at this
        exact hne (Option.some.inj this)
      rcases scan_spec h c i hlt with ⟨e, hnone⟩ | ⟨r, hr, e, hir, hrc, hnone⟩
      · split
        · next e' => rw [e] at e'; cases e'
        · refine ⟨-1, rfl, Or.inl ⟨rfl, fun k ho => ?_⟩⟩
          by_cases hk : k + m1 < i
          · exact hno k hk ho
          · have hlen := ((occurs_iff _ _ _).1 ho).1
            exact notocc k k (by omega) (hnone _ (by omega) (by omega)) rfl ho
        · next e' => rw [e] at e'; cases e'
      · split
        · next e' => rw [e] at e'; cases e'
        · next e' => rw [e] at e'; cases e'
        · next i' e' =>
          rw [e] at e'
          have : r = i' := by simpa using e'
          subst this
          rw [if_neg (by omega)]
          have hno' : ∀ k, k + m1 < r → ¬ Occurs h n k := by
            intro k hk
            by_cases hki : k + m1 < i
            · exact hno k hki
            · exact notocc k k (by omega) (hnone _ (by omega) hk) rfl
          rcases matchRest_spec h n (r - m1) m1 0 hm (by omega) h1 (fun k hk => absurd hk (Nat.not_lt_zero _)) with
            ⟨em, hall⟩ | ⟨em, k, hk, hne⟩
          · rw [em]
            refine ⟨_, rfl, Or.inr ⟨r - m1, rfl, ?_, fun j hj => hno' j (by omega)⟩⟩
            rw [occurs_iff]
            refine ⟨by omega, fun j hj => ?_⟩
            by_cases ej : j = m1
            · subst ej
              rw [hc, show r - j + j = r by omega, List.getElem?_eq_getElem hr, hrc]
            · exact hall j (by omega)
          · rw [em]
            simp only
            have hskip : ∃ s, (if skip = 0 then skipScan n m1 c m1 else some skip) = some s ∧ SkipOk n m1 c s := by
              by_cases h0 : skip = 0
              · rw [if_pos h0]
                exact skipScan_spec n m1 c hm m1 (Nat.le_refl _) (fun k a b => by omega)
              · rw [if_neg h0]; exact ⟨skip, rfl, hs.resolve_left h0⟩
            obtain ⟨s, es, hs1, hs2, hs3⟩ := hskip
            rw [es]
            simp only
            rw [if_neg (by omega)]
            refine ih (h.length - (r + s)) (by omega) s (r + s) (Or.inr ⟨hs1, hs2, hs3⟩) (by omega) ?_ rfl
            intro k' hk' ho
            by_cases hkr : k' + m1 < r
            · exact hno' k' hkr ho
            · by_cases hkr' : k' + m1 = r
              · have : k' = r - m1 := by omega
                subst this
                exact hne (((occurs_iff _ _ _).1 ho).2 k (by omega))
              · -- the tail of the needle would have to be at r
                have h2 := ((occurs_iff _ _ _).1 ho).2 (m1 - (k' + m1 - r)) (by omega)
                rw [show k' + (m1 - (k' + m1 - r)) = r by omega, List.getElem?_eq_getElem hr, hrc] at h2
                exact hs3 (k' + m1 - r) (by omega) (by omega) (by omega) h2.symm
    · rw [if_neg hlt]
      refine ⟨-1, rfl, Or.inl ⟨rfl, fun k ho => ?_⟩⟩
      have := ((occurs_iff _ _ _).1 ho).1
      exact hno k (by omega) ho

theorem findMany_first (h n : List α) : ∃ r, findMany h n = some r ∧ IsFirst h n r := by
  unfold findMany
  by_cases h1 : h.length < n.length ∨ n.length ≤ 0
  · rw [if_pos h1]
    by_cases h0 : n.length = 0
    · refine ⟨0, by simp [h0], Or.inr ⟨0, rfl, ?_, fun j hj => absurd hj (Nat.not_lt_zero _)⟩⟩
      rw [occurs_iff]; exact ⟨by omega, fun j hj => by omega⟩
    · refine ⟨-1, by simp [h0], Or.inl ⟨rfl, fun k ho => ?_⟩⟩
      have := ((occurs_iff _ _ _).1 ho).1
      omega
  · rw [if_neg h1]
    by_cases h2 : n.length = 1
    · rw [if_pos h2]
      obtain ⟨c, rfl⟩ := List.length_eq_one_iff.1 h2
      exact findItem_first h c
    · rw [if_neg h2]
      have hg : n[n.length - 1]? = some n[n.length - 1] := List.getElem?_eq_getElem (by omega)
      simp only [hg, Option.bind_eq_bind, Option.bind_some]
      exact findLoop_first h n (n.length - 1) _ (by omega) (by omega) hg 0 _ (Or.inl rfl) (Nat.le_refl _)
        (fun k hk => by omega)

/-- **C10.** `find` never faults, and returns the least index at which the needle occurs, or -1 when it does not occur. -/
theorem find_first (h : List α) (n : Needle α) : ∃ r, find h n = some r ∧ IsFirst h n.items r := by
  cases n with
  | one c => exact findItem_first h c
  | many l => exact findMany_first h l

/-- Specification: `n` occurs in `h` at `k`, inside the window from `start` to `stop`. -/
def OccursIn (h n : List α) (start stop k : Nat) : Prop := Occurs h n k ∧ start ≤ k ∧ k + n.length ≤ stop

/-- **C10 (window).** `find` with `start` and `end` returns the least index in the window at which the needle occurs
inside the window, as an index of the whole haystack; -1 when there is none. -/
theorem find_window (h : List α) (n : Needle α) (start stop : Nat) (hs : start ≤ stop) (hl : stop ≤ h.length) :
    ∃ r, findIn h n start stop = some r ∧
      ((r = -1 ∧ ∀ k, ¬ OccursIn h n.items start stop k) ∨
       (∃ k : Nat, r = k ∧ OccursIn h n.items start stop k ∧ ∀ j < k, ¬ OccursIn h n.items start stop j)) := by
  have key : ∀ k, Occurs ((h.take stop).drop start) n.items k ↔ OccursIn h n.items start stop (start + k) := by
    intro k
    unfold OccursIn
    rw [occurs_iff, occurs_iff]
    have hlen : ((h.take stop).drop start).length = stop - start := by
      rw [List.length_drop, List.length_take]; omega
    rw [hlen]
    constructor
    · rintro ⟨a, b⟩
      refine ⟨⟨by omega, fun j hj => ?_⟩, by omega, by omega⟩
      rw [← b j hj, List.getElem?_drop, List.getElem?_take_of_lt (by omega), Nat.add_assoc]
    · rintro ⟨⟨a, b⟩, c, d⟩
      refine ⟨by omega, fun j hj => ?_⟩
      rw [← b j hj, List.getElem?_drop, List.getElem?_take_of_lt (by omega), Nat.add_assoc]
  obtain ⟨r, e, hf⟩ := find_first ((h.take stop).drop start) n
  refine ⟨r + if r < 0 then 0 else (start : Int), ?_, ?_⟩
  · simp only [findIn, window, hs, hl, and_self, if_true, Option.bind_eq_bind, Option.bind_some, e]
  · rcases hf with ⟨rfl, hno⟩ | ⟨k, rfl, ho, hno⟩
    · left
      refine ⟨by simp, fun k hk => hno (k - start) ((key _).2 ?_)⟩
      rwa [show start + (k - start) = k by have := hk.2.1; omega]
    · right
      refine ⟨start + k, ?_, (key _).1 ho, fun j hj hk => hno (j - start) (by have := hk.2.1; omega) ((key _).2 ?_)⟩
      · rw [if_neg (by omega)]; omega
      · rwa [show start + (j - start) = j by have := hk.2.1; omega]

/-- **C10.** `has` decides occurrence. -/
theorem has_iff (h : List α) (n : Needle α) : ∃ b, has h n = some b ∧ (b = true ↔ ∃ p q, h = p ++ n.items ++ q) := by
  obtain ⟨r, e, hf⟩ := find_first h n
  refine ⟨decide (r ≥ 0), by simp [has, e], ?_⟩
  rw [decide_eq_true_iff]
  rcases hf with ⟨rfl, hno⟩ | ⟨k, rfl, ho, -⟩
  · simp only [ge_iff_le, Int.reduceNeg, Int.reduceLE, false_iff]
    rintro ⟨p, q, hpq⟩
    exact hno p.length ⟨p, q, hpq, rfl⟩
  · obtain ⟨p, q, hpq, -⟩ := ho
    exact ⟨fun _ => ⟨p, q, hpq⟩, fun _ => by omega⟩

/-- **C10.** `starts` decides being a prefix, `ends` being a suffix. -/
theorem starts_ends_iff (a : List α) (n : Needle α) :
    (∃ b, starts a n = some b ∧ (b = true ↔ ∃ q, a = n.items ++ q)) ∧
    (∃ b, ends a n = some b ∧ (b = true ↔ ∃ p, a = p ++ n.items)) := by
  cases n with
  | one c =>
    constructor
    · cases a with
      | nil => exact ⟨false, rfl, by simp [Needle.items]⟩
      | cons x xs => exact ⟨decide (x = c), by simp [starts], by simp [Needle.items]⟩
    · rcases List.eq_nil_or_concat a with rfl | ⟨xs, x, rfl⟩
      · exact ⟨false, rfl, by simp [Needle.items]⟩
      · refine ⟨decide (x = c), by simp [ends], ?_⟩
        simp only [Needle.items, decide_eq_true_iff, List.concat_eq_append]
        constructor
        · rintro rfl; exact ⟨xs, rfl⟩
        · rintro ⟨p, hp⟩; have := (List.append_inj' hp rfl).2; simpa using this
  | many w =>
    constructor
    · by_cases hl : a.length ≥ w.length
      · refine ⟨decide (a.take w.length = w), by simp [starts, window, hl], ?_⟩
        rw [decide_eq_true_iff]
        constructor
        · intro h; exact ⟨a.drop w.length, by
            conv => lhs; rw [← List.take_append_drop w.length a, h]
            rfl⟩
        · rintro ⟨q, rfl⟩; simp [Needle.items]
      · refine ⟨false, by simp only [starts]; rw [if_neg hl], ?_⟩
        simp only [Needle.items, Bool.false_eq_true, false_iff]
        rintro ⟨q, rfl⟩; simp at hl
    · by_cases hl : a.length ≥ w.length
      · refine ⟨decide (a.drop (a.length - w.length) = w), by simp [ends, window, hl], ?_⟩
        rw [decide_eq_true_iff]
        constructor
        · intro h; exact ⟨a.take (a.length - w.length), by
            conv => lhs; rw [← List.take_append_drop (a.length - w.length) a, h]
            rfl⟩
        · rintro ⟨p, rfl⟩; simp [Needle.items]
      · refine ⟨false, by simp only [ends]; rw [if_neg hl], ?_⟩
        simp only [Needle.items, Bool.false_eq_true, false_iff]
        rintro ⟨q, rfl⟩; simp at hl

end

example : findMany [1, 2, 1, 2, 3] [1, 2, 3] = some 2 := by decide +kernel
example : findIn [1, 2, 1, 2] (.many [1, 2]) 1 4 = some 2 := by decide +kernel

end Verif.Prelude
