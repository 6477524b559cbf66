import Verif.Prelude
import Mathlib.Data.List.Perm.Basic
import Mathlib.Data.List.GetD
/-!
# The prelude's list functions meet their specifications (C44)
-/
namespace Verif.Prelude
open Verif

variable {α : Type}

theorem swap_eq (l : List α) (i j : Nat) (hi : i < l.length) (hj : j < l.length) :
    swap l i j = some ((l.set i l[j]).set j l[i]) := by
  simp [swap, List.getElem?_eq_getElem hi, List.getElem?_eq_getElem hj]

theorem swap_get (l : List α) (i j : Nat) (hi : i < l.length) (hj : j < l.length) :
    ∃ r, swap l i j = some r ∧ r.length = l.length ∧
      ∀ k, r[k]? = if k = i then l[j]? else if k = j then l[i]? else l[k]? := by
  refine ⟨_, swap_eq l i j hi hj, by simp, fun k => ?_⟩
  rw [List.getElem?_set, List.getElem?_set]
  by_cases h1 : j = k
  · subst h1
    by_cases h2 : j = i
    · subst h2; simp [hj]
    · simp [h2, hj, hi]
  · rw [if_neg h1]
    by_cases h2 : i = k
    · subst h2; simp [hi, hj]
    · rw [if_neg h2, if_neg (fun e => h2 e.symm), if_neg (fun e => h1 e.symm)]

theorem swap_perm (l : List α) (i j : Nat) (hi : i < l.length) (hj : j < l.length) :
    ∃ r, swap l i j = some r ∧ r.Perm l ∧ r.length = l.length ∧
      ∀ k, r[k]? = if k = i then l[j]? else if k = j then l[i]? else l[k]? := by
  obtain ⟨r, e, hl, hg⟩ := swap_get l i j hi hj
  refine ⟨r, e, ?_, hl, hg⟩
  rw [swap_eq l i j hi hj] at e
  cases e
  exact List.set_set_perm hi hj

/-- **C44.** `reverse` reverses. -/
theorem reverse_eq (a : List α) : reverse a = some a.reverse := by
  unfold reverse
  obtain ⟨r, e, hl, hr⟩ := forUp_inv (lo := 0) (hi := a.length / 2) (s := a)
    (body := fun i b => swap b i (a.length - 1 - i))
    (fun k b => b.length = a.length ∧ ∀ i, b[i]? = if i < k ∨ (a.length - k ≤ i ∧ i < a.length) then a.reverse[i]? else a[i]?)
    (Nat.zero_le _) ⟨rfl, fun i => by rw [if_neg (by omega)]⟩
    (fun k b _ hk ⟨hb, hP⟩ => by
      obtain ⟨r, e, hl, hg⟩ := swap_get b k (a.length - 1 - k) (by omega) (by omega)
      refine ⟨r, e, by omega, fun i => ?_⟩
      have rev : ∀ j, j < a.length → a.reverse[j]? = a[a.length - 1 - j]? := fun j hj => List.getElem?_reverse hj
      rw [hg i]
      by_cases h1 : i = k
      · subst h1
        rw [if_pos rfl, hP, if_neg (by omega), if_pos (by omega), rev i (by omega)]
      · rw [if_neg h1]
        by_cases h2 : i = a.length - 1 - k
        · rw [if_pos h2, hP, if_neg (by omega), if_pos (by omega), rev i (by omega)]
          congr 1; omega
        · rw [if_neg h2, hP i]
          by_cases h3 : i < k ∨ (a.length - k ≤ i ∧ i < a.length)
          · rw [if_pos h3, if_pos (by omega)]
          · rw [if_neg h3, if_neg (by omega)])
  show forUp 0 (a.length / 2) a _ = _
  rw [e]
  congr 1
  apply List.ext_getElem?
  intro i
  rw [hr i]
  by_cases h1 : i < a.length / 2 ∨ (a.length - a.length / 2 ≤ i ∧ i < a.length)
  · rw [if_pos h1]
  · rw [if_neg h1]
    by_cases h2 : i < a.length
    · rw [List.getElem?_reverse h2]
      congr 1; omega
    · rw [List.getElem?_eq_none (by omega), List.getElem?_eq_none (by simp; omega)]

/-- Specification: the items at positions `≥ start` for which the predicate is false, in order. -/
def keptFrom (pred : α → Nat → Bool) (start : Nat) (a : List α) : List α :=
  (a.zipIdx.filter fun p => decide (start ≤ p.2) && !pred p.1 p.2).map (·.1)

/-- The same for the positions from `start` up to (not including) `i`. -/
def keptUpTo (pred : α → Nat → Bool) (start i : Nat) (a : List α) : List α :=
  ((a.take i).zipIdx.filter fun p => decide (start ≤ p.2) && !pred p.1 p.2).map (·.1)

theorem keptUpTo_succ (pred : α → Nat → Bool) (start i : Nat) (a : List α) (h : i < a.length) (hs : start ≤ i) :
    keptUpTo pred start (i + 1) a = keptUpTo pred start i a ++ if pred a[i] i then [] else [a[i]] := by
  unfold keptUpTo
  rw [List.take_succ_eq_append_getElem h, List.zipIdx_append, List.filter_append, List.map_append]
  congr 1
  simp only [List.length_take, Nat.min_eq_left (Nat.le_of_lt h), Nat.zero_add, List.zipIdx_cons, List.zipIdx_nil]
  by_cases hp : pred a[i] i = true <;> simp [hp, hs]

theorem partition_loop (a : List α) (pred : α → Nat → Bool) (start : Nat) (hs : start ≤ a.length) :
    ∃ s, partition a pred start = some s ∧ s.1.Perm a ∧ s.2 ≤ a.length ∧ start ≤ s.2 ∧
      s.1.take s.2 = a.take start ++ keptFrom pred start a := by
  have hk0 : keptUpTo pred start start a = [] := by
    unfold keptUpTo
    rw [List.map_eq_nil_iff, List.filter_eq_nil_iff]
    rintro ⟨x, j⟩ hm
    have := List.mem_zipIdx hm
    simp only [List.length_take] at this
    simp; intro hh; omega
  obtain ⟨s, e, h⟩ := forUp_inv (lo := start) (hi := a.length) (s := (a, start)) (body := partitionStep pred)
    (fun i s => s.1.Perm a ∧ start ≤ s.2 ∧ s.2 ≤ i ∧ (∀ j, i ≤ j → s.1[j]? = a[j]?) ∧
      s.1.take s.2 = a.take start ++ keptUpTo pred start i a)
    hs ⟨List.Perm.refl _, Nat.le_refl _, Nat.le_refl _, fun _ _ => rfl, by rw [hk0]; simp⟩ (by
      rintro i ⟨b, keep⟩ hsi hi ⟨h1, h2, h3, h4, h5⟩
      simp only at h1 h2 h3 h4 h5
      have hbl : b.length = a.length := h1.length_eq
      have hbi : b[i]? = some a[i] := by rw [h4 i (Nat.le_refl _)]; exact List.getElem?_eq_getElem hi
      have hbi' : b[i] = a[i] := by
        rw [List.getElem?_eq_getElem (by omega)] at hbi; exact Option.some.inj hbi
      unfold partitionStep
      simp only [hbi, Option.bind_eq_bind, Option.bind_some]
      rw [keptUpTo_succ pred start i a hi hsi]
      by_cases hp : pred a[i] i = true
      · refine ⟨(b, keep), by simp [hp], h1, h2, by simp only; omega, fun j hj => h4 j (by omega), ?_⟩
        simp [hp, h5]
      · simp only [hp, Bool.not_false, if_true, Bool.false_eq_true, if_false]
        by_cases hk : keep < i
        · obtain ⟨r, er, hperm, hrl, hrg⟩ := swap_perm b i keep (by omega) (by omega)
          refine ⟨(r, keep + 1), by simp [hk, er], hperm.trans h1, by simp only; omega, by simp only; omega, ?_, ?_⟩
          · intro j hj
            rw [hrg j, if_neg (by omega), if_neg (by omega)]
            exact h4 j (by omega)
          · have hrk : r[keep]? = some a[i] := by
              rw [hrg keep, if_neg (by omega), if_pos rfl, hbi]
            have hkl : keep < r.length := by omega
            rw [List.getElem?_eq_getElem hkl] at hrk
            simp only
            rw [List.take_succ_eq_append_getElem hkl, Option.some.inj hrk, ← List.append_assoc, ← h5]
            congr 1
            apply List.ext_getElem?
            intro j
            by_cases hjk : j < keep
            · rw [List.getElem?_take_of_lt hjk, List.getElem?_take_of_lt hjk, hrg j, if_neg (by omega),
                if_neg (by omega)]
            · rw [List.getElem?_eq_none (by rw [List.length_take]; omega),
                List.getElem?_eq_none (by rw [List.length_take]; omega)]
        · have hki : keep = i := by omega
          subst hki
          refine ⟨(b, keep + 1), by simp, h1, by simp only; omega, by simp only; omega, fun j hj => h4 j (by omega), ?_⟩
          simp only
          rw [List.take_succ_eq_append_getElem (by omega), hbi', h5]
          simp)
  refine ⟨s, e, h.1, h.2.2.1, h.2.1, ?_⟩
  have := h.2.2.2.2
  unfold keptUpTo at this
  rw [List.take_length] at this
  exact this

/-- **C44.** `partition` permutes the array; the items before `start` stay, then come the items for which the predicate
fails, in their old order, and the returned index is where they end. -/
theorem partition_spec (a : List α) (pred : α → Nat → Bool) (start : Nat) (hs : start ≤ a.length) :
    ∃ r keep, partition a pred start = some (r, keep) ∧ r.Perm a ∧ keep ≤ a.length ∧
      r.take keep = a.take start ++ keptFrom pred start a := by
  obtain ⟨s, e, h1, h2, -, h3⟩ := partition_loop a pred start hs
  exact ⟨s.1, s.2, e, h1, h2, h3⟩

theorem keptFrom_zero (p : α → Bool) (a : List α) : keptFrom (fun x _ => p x) 0 a = a.filter fun x => !p x := by
  unfold keptFrom
  simp only [Nat.zero_le, decide_true, Bool.true_and]
  have : ∀ n, ((a.zipIdx n).filter fun q => !p q.1).map (·.1) = a.filter fun x => !p x := by
    induction a with
    | nil => intro n; rfl
    | cons x xs ih =>
      intro n
      rw [List.zipIdx_cons]
      by_cases hp : p x = true
      · simp [hp, ih]
      · simp [hp, ih]
  exact this 0

/-- **C44.** `remove(predicate)` (for types that are not trivial) keeps exactly the items for which the predicate is
false, in order. -/
theorem remove_spec (a : List α) (p : α → Bool) : removeNontrivial a (fun x _ => p x) = some (a.filter fun x => !p x) := by
  obtain ⟨r, keep, e, -, -, h⟩ := partition_spec a (fun x _ => p x) 0 (Nat.zero_le _)
  unfold removeNontrivial
  rw [e]
  simp only [Option.bind_eq_bind, Option.bind_some, h, keptFrom_zero]
  simp

/-- **C44.** `map` maps, whatever was in the uninitialised result. -/
theorem map_spec {β : Type} (junk : Nat → List β) (hj : ∀ n, (junk n).length = n) (a : List α) (f : α → Nat → β) :
    map junk a f = some (a.mapIdx fun i x => f x i) := by
  unfold map
  obtain ⟨r, e, hl, hr⟩ := forUp_inv (lo := 0) (hi := a.length) (s := junk a.length)
    (body := fun i res => do
      let x ← a[i]?
      if i < res.length then some (res.set i (f x i)) else none)
    (fun k r => r.length = a.length ∧ ∀ i < k, r[i]? = (a.mapIdx fun i x => f x i)[i]?)
    (Nat.zero_le _) ⟨hj _, fun i hi => absurd hi (Nat.not_lt_zero _)⟩
    (fun k r _ hk ⟨h1, h2⟩ => by
      refine ⟨r.set k (f a[k] k), by simp [List.getElem?_eq_getElem hk, h1, hk], by simpa using h1, fun i hi => ?_⟩
      rw [List.getElem?_set]
      by_cases e : k = i
      · subst e; simp [h1, hk]
      · rw [if_neg e]; exact h2 i (by omega))
  rw [e]
  congr 1
  apply List.ext_getElem?
  intro i
  by_cases hi : i < a.length
  · exact hr i hi
  · rw [List.getElem?_eq_none (by omega), List.getElem?_eq_none (by simp; omega)]

/-- **C44.** `all` and `some` decide the universal and the existential statement. -/
theorem all_some_spec (a : List α) (pred : α → Nat → Bool) :
    (∃ b, all a pred = some b ∧ (b = true ↔ ∀ i, (h : i < a.length) → pred a[i] i = true)) ∧
    (∃ b, some_ a pred = some b ∧ (b = true ↔ ∃ i, ∃ h : i < a.length, pred a[i] i = true)) := by
  constructor
  · rcases forBrk_inv (lo := 0) (hi := a.length) (s := ())
      (body := fun i () => do let x ← a[i]?; some (if !pred x i then (.inr false : Unit ⊕ Bool) else .inl ()))
      (fun k _ => ∀ i, (h : i < a.length) → i < k → pred a[i] i = true)
      (fun r => r = false ∧ ∃ i, ∃ h : i < a.length, pred a[i] i = false)
      (Nat.zero_le _) (fun i _ h => absurd h (Nat.not_lt_zero _))
      (fun k s _ hk hP => by
        simp only [List.getElem?_eq_getElem hk, Option.bind_eq_bind, Option.bind_some]
        by_cases hp : pred a[k] k = true
        · left
          refine ⟨(), by simp [hp], fun i h hi => ?_⟩
          by_cases e : i = k
          · subst e; exact hp
          · exact hP i h (by omega)
        · right; exact ⟨false, by simp [hp], rfl, k, hk, by simpa using hp⟩) with ⟨s, e, hP⟩ | ⟨r, e, rfl, i, h, hp⟩
    · exact ⟨true, by unfold all; rw [e]; rfl, by simp; exact fun i h => hP i h h⟩
    · refine ⟨false, by unfold all; rw [e]; rfl, ?_⟩
      simp only [Bool.false_eq_true, false_iff]
      intro hh; rw [hh i h] at hp; cases hp
  · rcases forBrk_inv (lo := 0) (hi := a.length) (s := ())
      (body := fun i () => do let x ← a[i]?; some (if pred x i then (.inr true : Unit ⊕ Bool) else .inl ()))
      (fun k _ => ∀ i, (h : i < a.length) → i < k → pred a[i] i = false)
      (fun r => r = true ∧ ∃ i, ∃ h : i < a.length, pred a[i] i = true)
      (Nat.zero_le _) (fun i _ h => absurd h (Nat.not_lt_zero _))
      (fun k s _ hk hP => by
        simp only [List.getElem?_eq_getElem hk, Option.bind_eq_bind, Option.bind_some]
        by_cases hp : pred a[k] k = true
        · right; exact ⟨true, by simp [hp], rfl, k, hk, by simpa using hp⟩
        · left
          refine ⟨(), by simp [hp], fun i h hi => ?_⟩
          by_cases e : i = k
          · subst e; simpa using hp
          · exact hP i h (by omega)) with ⟨s, e, hP⟩ | ⟨r, e, rfl, i, h, hp⟩
    · refine ⟨false, by unfold some_; rw [e]; rfl, ?_⟩
      simp only [Bool.false_eq_true, false_iff]
      rintro ⟨i, h, hp⟩; rw [hP i h h] at hp; cases hp
    · exact ⟨true, by unfold some_; rw [e]; rfl, by simp; exact ⟨i, h, hp⟩⟩

/-- **C44.** `resize(len, v)` cuts or extends with copies of `v`; no uninitialised slot is left. -/
theorem resize_spec (junk : Nat → List α) (hj : ∀ n, (junk n).length = n) (a : List α) (len : Nat) (v : α) :
    resize junk a len v = some (a.take len ++ List.replicate (len - a.length) v) := by
  unfold resize
  by_cases hle : len ≤ a.length
  · have : junk (len - a.length) = [] := List.eq_nil_of_length_eq_zero (by rw [hj]; omega)
    show forUp a.length len _ _ = _
    unfold forUp
    rw [if_neg (by omega), this, show len - a.length = 0 by omega]; rfl
  · have ht : a.take len = a := List.take_of_length_le (by omega)
    rw [ht]
    obtain ⟨r, e, hl, hr⟩ := forUp_inv (lo := a.length) (hi := len) (s := a ++ junk (len - a.length))
      (body := fun i a => if i < a.length then some (a.set i v) else none)
      (fun k r => r.length = len ∧ ∀ i < k, r[i]? = (a ++ List.replicate (len - a.length) v)[i]?)
      (by omega) ⟨by simp [hj]; omega, fun i hi => by rw [List.getElem?_append_left hi, List.getElem?_append_left hi]⟩
      (fun k r hk hk' ⟨h1, h2⟩ => by
        refine ⟨r.set k v, by rw [if_pos (by omega)], by simpa using h1, fun i hi => ?_⟩
        rw [List.getElem?_set]
        by_cases e : k = i
        · subst e
          rw [if_pos rfl, if_pos (by omega), List.getElem?_append_right hk, List.getElem?_replicate, if_pos (by omega)]
        · rw [if_neg e]; exact h2 i (by omega))
    show forUp a.length len _ _ = _
    rw [e]
    congr 1
    apply List.ext_getElem?
    intro i
    by_cases hi : i < len
    · exact hr i hi
    · rw [List.getElem?_eq_none (by omega), List.getElem?_eq_none (by simp; omega)]

/-- **C44.** `min`, `max` and `clamp`. -/
theorem minmax_spec (a b : Int) : max' a b = max a b ∧ min' a b = min a b := by
  unfold max' min'; constructor
  · split <;> omega
  · split <;> omega

/-- **C44.** `clamp` returns the nearest value of the interval, when there is one. -/
theorem clamp_spec (v lo hi : Int) (h : lo ≤ hi) :
    lo ≤ clamp v lo hi ∧ clamp v lo hi ≤ hi ∧ (lo ≤ v → v ≤ hi → clamp v lo hi = v) ∧
    (v < lo → clamp v lo hi = lo) ∧ (hi < v → clamp v lo hi = hi) := by
  unfold clamp
  rw [(minmax_spec _ _).1, (minmax_spec _ _).2]
  omega

theorem steal_loop (d : α) (a : List α) (start n : Nat) (h : start + n ≤ a.length) :
    ∃ s, forUp 0 n (List.replicate n d, a) (stealStep start) = some s ∧
      s.1 = (a.drop start).take n ∧ s.2.take start = a.take start ∧ s.2.drop (start + n) = a.drop (start + n) ∧
      s.2.length = a.length := by
  obtain ⟨s, e, h1, h2, h3, h4⟩ := forUp_inv (lo := 0) (hi := n) (s := (List.replicate n d, a)) (body := stealStep start)
    (fun k (s : List α × List α) => s.1.length = n ∧ s.2.length = a.length ∧ (∀ i < k, s.1[i]? = a[start + i]?) ∧
      (∀ i, i < start ∨ start + k ≤ i → s.2[i]? = a[i]?))
    (Nat.zero_le _) ⟨by simp, rfl, fun i hi => absurd hi (Nat.not_lt_zero _), fun _ _ => rfl⟩
    (by
      rintro k ⟨ret, b⟩ _ hk ⟨h1, h2, h3, h4⟩
      simp only at h1 h2 h3 h4
      have hb : b[k + start]? = some a[start + k] := by
        rw [h4 _ (by omega), Nat.add_comm]; exact List.getElem?_eq_getElem (by omega)
      refine ⟨(ret.set k a[start + k], b.set (k + start) ret[k]), ?_, by simpa using h1, by simpa using h2, ?_, ?_⟩
      · simp [stealStep, List.getElem?_eq_getElem (show k < ret.length by omega), hb]
      · intro i hi
        simp only
        rw [List.getElem?_set]
        by_cases e : k = i
        · subst e
          rw [if_pos rfl, if_pos (by omega)]; exact (List.getElem?_eq_getElem (by omega)).symm
        · rw [if_neg e]; exact h3 i (by omega)
      · intro i hi
        simp only
        rw [List.getElem?_set, if_neg (by omega)]
        exact h4 i (by omega))
  refine ⟨s, e, ?_, ?_, ?_, h2⟩
  · apply List.ext_getElem?
    intro i
    by_cases hi : i < n
    · rw [h3 i hi, List.getElem?_take_of_lt hi, List.getElem?_drop]
    · rw [List.getElem?_eq_none (by omega), List.getElem?_eq_none (by rw [List.length_take]; omega)]
  · apply List.ext_getElem?
    intro i
    by_cases hi : i < start
    · rw [List.getElem?_take_of_lt hi, List.getElem?_take_of_lt hi, h4 i (Or.inl hi)]
    · rw [List.getElem?_eq_none (by rw [List.length_take]; omega), List.getElem?_eq_none (by rw [List.length_take]; omega)]
  · apply List.ext_getElem?
    intro i
    rw [List.getElem?_drop, List.getElem?_drop, h4 _ (Or.inr (by omega))]

/-- **C44.** Stealing a tail or a range moves it out: the result is the range, and the array keeps the rest in order,
exactly as if the range had been copied out and then removed. -/
theorem steal_spec (d : α) (a : List α) (start stop : Nat) (h1 : start ≤ stop) (h2 : stop ≤ a.length) :
    stealFrom d a start = some (a.drop start, a.take start) ∧
    stealRange d a start stop = some ((a.take stop).drop start, a.take start ++ a.drop stop) := by
  constructor
  · obtain ⟨s, e, r1, r2, -, -⟩ := steal_loop d a start (a.length - start) (by omega)
    unfold stealFrom
    rw [if_pos (by omega)]
    simp only [e, Option.bind_eq_bind, Option.bind_some]
    rw [r1, r2, List.take_of_length_le (by rw [List.length_drop]; exact Nat.le_refl _)]
  · obtain ⟨s, e, r1, r2, r3, -⟩ := steal_loop d a start (stop - start) (by omega)
    unfold stealRange
    simp only [e, Option.bind_eq_bind, Option.bind_some]
    rw [r1, r2, r3, show start + (stop - start) = stop by omega, List.take_drop, show start + (stop - start) = stop by omega]

example : reverse [1, 2, 3, 4] = some [4, 3, 2, 1] := by decide +kernel
example : partition [1, 2, 3, 4, 5] (fun x _ => x % 2 == 0) = some ([1, 3, 5, 4, 2], 3) := by decide +kernel
example : stealRange 0 [1, 2, 3, 4] 1 3 = some ([2, 3], [1, 4]) := by decide +kernel

end Verif.Prelude
