import Verif.Flat
import Verif.PreludeCmp
import Mathlib.Data.Set.Card
import Mathlib.Data.List.Perm.Basic
import Mathlib.Tactic.ByContra
import Mathlib.Tactic.SplitIfs
/-!
# Sorted flat sets, maps and counted sets are sets, maps and multisets (C19)

The specification: a mathematical set of keys, a partial function from keys to values, a function from keys to counts.
-/
namespace Verif.Flat
open Verif.Prelude (TotalOrder)

variable {K V : Type} {cmp : K → K → Int}

/-- Strictly ascending, hence without duplicates. -/
def Sorted (cmp : K → K → Int) (l : List K) : Prop := l.Pairwise fun a b => cmp a b < 0

/-- The keys represent the set `S`. -/
structure Rep (cmp : K → K → Int) (l : List K) (S : Set K) : Prop where
  sorted : Sorted cmp l
  mem : ∀ k, k ∈ l ↔ k ∈ S

theorem Rep_empty : Rep cmp [] ∅ := ⟨List.Pairwise.nil, by simp⟩

/-! ## Order facts -/

theorem irrefl (ho : TotalOrder cmp) (a : K) : ¬ cmp a a < 0 := by
  have := (ho.eq_iff a a).2 rfl; omega

theorem asymm (ho : TotalOrder cmp) {a b : K} (h : cmp a b < 0) : ¬ cmp b a < 0 := by
  intro h'; exact irrefl ho a (ho.trans _ _ _ h h')

/-- Two strictly sorted lists with the same elements are equal: a set has one representation. -/
theorem sorted_ext (ho : TotalOrder cmp) {l m : List K} (hl : Sorted cmp l) (hm : Sorted cmp m) (h : ∀ k, k ∈ l ↔ k ∈ m) :
    l = m := by
  induction l generalizing m with
  | nil =>
    cases m with
    | nil => rfl
    | cons b m => exact absurd ((h b).2 (by simp)) (by simp)
  | cons a l ih =>
    cases m with
    | nil => exact absurd ((h a).1 (by simp)) (by simp)
    | cons b m =>
      have hl' := List.pairwise_cons.1 hl
      have hm' := List.pairwise_cons.1 hm
      have hab : a = b := by
        rcases List.mem_cons.1 ((h a).1 (by simp)) with h1 | h1
        · exact h1
        · rcases List.mem_cons.1 ((h b).2 (by simp)) with h2 | h2
          · exact h2.symm
          · exact absurd (hl'.1 b h2) (asymm ho (hm'.1 a h1))
      subst hab
      congr 1
      apply ih hl'.2 hm'.2
      intro k
      constructor
      · intro hk
        rcases List.mem_cons.1 ((h k).1 (by simp [hk])) with rfl | h1
        · exact absurd (hl'.1 k hk) (irrefl ho k)
        · exact h1
      · intro hk
        rcases List.mem_cons.1 ((h k).2 (by simp [hk])) with rfl | h1
        · exact absurd (hm'.1 k hk) (irrefl ho k)
        · exact h1

theorem sorted_lt {l : List K} (h : Sorted cmp l) {i j : Nat} (hij : i < j) (hj : j < l.length) :
    cmp (l[i]'(by omega)) l[j] < 0 := List.pairwise_iff_getElem.1 h i j (by omega) hj hij

theorem gt_of (ho : TotalOrder cmp) {a b : K} (h0 : cmp a b ≠ 0) (h1 : ¬ cmp a b < 0) : cmp b a < 0 :=
  (ho.flip a b).1 (by omega)

/-! ## bfind -/

/-- What `bfind` answers on sorted keys. -/
def FoundOk (cmp : K → K → Int) (keys : List K) (key : K) : Found → Prop
  | .hit i => keys[i]? = some key
  | .miss i => i ≤ keys.length ∧ (∀ k ∈ keys.take i, cmp k key < 0) ∧ (∀ k ∈ keys.drop i, cmp key k < 0)

theorem bfindLoop_ok (ho : TotalOrder cmp) {keys : List K} (hs : Sorted cmp keys) (key : K) (lo hi : Nat)
    (hlh : lo ≤ hi) (hh : hi ≤ keys.length)
    (h1 : ∀ j (hj : j < keys.length), j < lo → cmp keys[j] key < 0)
    (h2 : ∀ j (hj : j < keys.length), hi ≤ j → cmp key keys[j] < 0) :
    ∃ f, bfindLoop cmp keys key lo hi = some f ∧ FoundOk cmp keys key f := by
  induction hn : hi - lo using Nat.strongRecOn generalizing lo hi with
  | ind n ih =>
    unfold bfindLoop
    by_cases hlt : lo < hi
    · rw [if_pos hlt]
      have hm : (hi + lo) / 2 < keys.length := by omega
      rw [List.getElem?_eq_getElem hm]
      simp only
      split
      · next h =>
        refine ⟨_, rfl, ?_⟩
        show keys[(hi + lo) / 2]? = some key
        rw [List.getElem?_eq_getElem hm, (ho.eq_iff _ _).1 h]
      · next h0 =>
        split
        · next h =>
          apply ih (hi - ((hi + lo) / 2 + 1)) (by omega) _ _ (by omega) hh _ h2 rfl
          intro j hj hjl
          by_cases hj' : j = (hi + lo) / 2
          · subst hj'; exact h
          · exact ho.trans _ _ _ (sorted_lt hs (by omega) hm) h
        · next h =>
          apply ih ((hi + lo) / 2 - lo) (by omega) _ _ (by omega) (by omega) h1 _ rfl
          intro j hj hjl
          have hg := gt_of ho h0 h
          by_cases hj' : j = (hi + lo) / 2
          · subst hj'; exact hg
          · exact ho.trans _ _ _ hg (sorted_lt hs (by omega) hj)
    · rw [if_neg hlt]
      refine ⟨_, rfl, by omega, ?_, ?_⟩
      · intro k hk
        obtain ⟨j, hj, rfl⟩ := List.mem_take_iff_getElem.1 hk
        exact h1 j (by omega) (by omega)
      · intro k hk
        obtain ⟨j, hj, rfl⟩ := List.mem_drop_iff_getElem.1 hk
        exact h2 (lo + j) (by omega) (by omega)

theorem bfind_ok (ho : TotalOrder cmp) {keys : List K} (hs : Sorted cmp keys) (key : K) :
    ∃ f, bfind cmp keys key = some f ∧ FoundOk cmp keys key f :=
  bfindLoop_ok ho hs key 0 keys.length (Nat.zero_le _) (Nat.le_refl _) (fun j _ h => absurd h (by omega))
    (fun j hj h => absurd h (by omega))

theorem not_mem_of_miss (ho : TotalOrder cmp) {keys : List K} {key : K} {i : Nat} (h : FoundOk cmp keys key (.miss i)) :
    key ∉ keys := by
  intro hk
  rw [← List.take_append_drop i keys, List.mem_append] at hk
  rcases hk with hk | hk
  · exact irrefl ho _ (h.2.1 _ hk)
  · exact irrefl ho _ (h.2.2 _ hk)

theorem mem_insertAt {α : Type} (l : List α) (i : Nat) (x k : α) : k ∈ insertAt l i x ↔ k = x ∨ k ∈ l := by
  unfold insertAt
  rw [List.mem_append, List.mem_cons]
  conv => rhs; rw [← List.take_append_drop i l, List.mem_append]
  tauto

theorem insertAt_sorted {keys : List K} (hs : Sorted cmp keys) {key : K} {i : Nat}
    (h : FoundOk cmp keys key (.miss i)) : Sorted cmp (insertAt keys i key) := by
  unfold insertAt Sorted
  have hs' : Sorted cmp (keys.take i ++ keys.drop i) := by rwa [List.take_append_drop]
  obtain ⟨p1, p2, p3⟩ := List.pairwise_append.1 hs'
  rw [List.pairwise_append]
  refine ⟨p1, List.pairwise_cons.2 ⟨h.2.2, p2⟩, ?_⟩
  intro a ha b hb
  rcases List.mem_cons.1 hb with rfl | hb
  · exact h.2.1 a ha
  · exact p3 a ha b hb

theorem split_at {α : Type} {l : List α} {i : Nat} {x : α} (h : l[i]? = some x) : l = l.take i ++ x :: l.drop (i + 1) := by
  obtain ⟨hi, rfl⟩ := List.getElem?_eq_some_iff.1 h
  rw [List.getElem_cons_drop, List.take_append_drop]

theorem spliceAt_sorted {keys : List K} (hs : Sorted cmp keys) (i : Nat) : Sorted cmp (spliceAt keys i) := by
  unfold spliceAt Sorted
  have hs' : Sorted cmp (keys.take i ++ keys.drop i) := by rwa [List.take_append_drop]
  obtain ⟨p1, p2, p3⟩ := List.pairwise_append.1 hs'
  rw [List.pairwise_append]
  have hsub : (keys.drop (i + 1)).Sublist (keys.drop i) := by
    rw [← List.drop_drop]; exact List.drop_sublist _ _
  exact ⟨p1, p2.sublist hsub, fun a ha b hb => p3 a ha b (hsub.subset hb)⟩

theorem mem_spliceAt (ho : TotalOrder cmp) {keys : List K} (hs : Sorted cmp keys) {i : Nat} {key : K}
    (h : keys[i]? = some key) (k : K) : k ∈ spliceAt keys i ↔ k ≠ key ∧ k ∈ keys := by
  have hs' : Sorted cmp (keys.take i ++ key :: keys.drop (i + 1)) := by rw [← split_at h]; exact hs
  obtain ⟨p1, p2, p3⟩ := List.pairwise_append.1 hs'
  have p4 := (List.pairwise_cons.1 p2).1
  unfold spliceAt
  conv => rhs; rw [split_at h]
  simp only [List.mem_append, List.mem_cons]
  constructor
  · rintro (hk | hk)
    · exact ⟨fun e => irrefl ho key (e ▸ p3 k hk key (by simp)), Or.inl hk⟩
    · exact ⟨fun e => irrefl ho key (e ▸ p4 k hk), Or.inr (Or.inr hk)⟩
  · rintro ⟨hne, hk | hk | hk⟩
    · exact Or.inl hk
    · exact absurd hk hne
    · exact Or.inr hk

/-! ## C19: sets -/

theorem C19_has (ho : TotalOrder cmp) {l : List K} {S : Set K} (h : Rep cmp l S) (k : K) :
    ∃ r, has cmp l k = some r ∧ (r = true ↔ k ∈ S) := by
  obtain ⟨f, e, hf⟩ := bfind_ok ho h.sorted k
  unfold has
  rw [e]
  cases f with
  | hit i => exact ⟨_, rfl, by simp; exact (h.mem k).1 (List.mem_of_getElem? hf)⟩
  | miss i => exact ⟨_, rfl, by simp; exact fun hk => not_mem_of_miss ho hf ((h.mem k).2 hk)⟩

theorem C19_add (ho : TotalOrder cmp) {l : List K} {S : Set K} (h : Rep cmp l S) (k : K) :
    ∃ l' r, add cmp l k = some (l', r) ∧ Rep cmp l' (insert k S) ∧ (r = true ↔ k ∉ S) := by
  obtain ⟨f, e, hf⟩ := bfind_ok ho h.sorted k
  unfold add
  rw [e]
  cases f with
  | hit i =>
    have hk := (h.mem k).1 (List.mem_of_getElem? hf)
    exact ⟨_, _, rfl, by rwa [Set.insert_eq_of_mem hk], by simp [hk]⟩
  | miss i =>
    have hk : k ∉ S := fun hk => not_mem_of_miss ho hf ((h.mem k).2 hk)
    refine ⟨_, _, rfl, ⟨insertAt_sorted h.sorted hf, fun j => ?_⟩, by simp [hk]⟩
    rw [mem_insertAt, h.mem, Set.mem_insert_iff]

theorem C19_remove (ho : TotalOrder cmp) {l : List K} {S : Set K} (h : Rep cmp l S) (k : K) :
    ∃ l' r, remove cmp l k = some (l', r) ∧ Rep cmp l' (S \ {k}) ∧ (r = true ↔ k ∈ S) := by
  obtain ⟨f, e, hf⟩ := bfind_ok ho h.sorted k
  unfold remove
  rw [e]
  cases f with
  | hit i =>
    have hk := (h.mem k).1 (List.mem_of_getElem? hf)
    refine ⟨_, _, rfl, ⟨spliceAt_sorted h.sorted i, fun j => ?_⟩, by simp [hk]⟩
    rw [mem_spliceAt ho h.sorted hf, h.mem, Set.mem_sdiff, Set.mem_singleton_iff, and_comm]
  | miss i =>
    have hk : k ∉ S := fun hk => not_mem_of_miss ho hf ((h.mem k).2 hk)
    refine ⟨_, _, rfl, ?_, by simp [hk]⟩
    rwa [Set.sdiff_singleton_eq_self hk]

/-- A set has one representation. -/
theorem C19_canonical (ho : TotalOrder cmp) {l m : List K} {S : Set K} (hl : Rep cmp l S) (hm : Rep cmp m S) : l = m :=
  sorted_ext ho hl.sorted hm.sorted fun k => (hl.mem k).trans (hm.mem k).symm

/-- Set operations, for histories. -/
inductive SetOp (K : Type)
  | add (k : K) | remove (k : K) | has (k : K) | clear

/-- The code. -/
def setExec (cmp : K → K → Int) (l : List K) : SetOp K → Option (List K × Option Bool)
  | .add k => (Verif.Flat.add cmp l k).map fun p => (p.1, some p.2)
  | .remove k => (Verif.Flat.remove cmp l k).map fun p => (p.1, some p.2)
  | .has k => (Verif.Flat.has cmp l k).map fun r => (l, some r)
  | .clear => some ([], none)

open Classical in
/-- The specification. -/
noncomputable def setSpec (S : Set K) : SetOp K → Set K × Option Bool
  | .add k => (insert k S, some (decide (k ∉ S)))
  | .remove k => (S \ {k}, some (decide (k ∈ S)))
  | .has k => (S, some (decide (k ∈ S)))
  | .clear => (∅, none)

/-- Run a history, collecting the answers. -/
def runAll {σ ο ρ : Type} (step : σ → ο → Option (σ × ρ)) : σ → List ο → Option (σ × List ρ)
  | s, [] => some (s, [])
  | s, o :: os =>
    match step s o with
    | none => none
    | some (s', r) =>
      match runAll step s' os with
      | none => none
      | some (s'', rs) => some (s'', r :: rs)

/-- The same on the specification side. -/
def specAll {σ ο ρ : Type} (step : σ → ο → σ × ρ) : σ → List ο → σ × List ρ
  | s, [] => (s, [])
  | s, o :: os => ((specAll step (step s o).1 os).1, (step s o).2 :: (specAll step (step s o).1 os).2)

/-- If every step of the code matches the specification under `R`, so does every history. -/
theorem runAll_refines {σ τ ο ρ : Type} (R : σ → τ → Prop) (step : σ → ο → Option (σ × ρ)) (spec : τ → ο → τ × ρ)
    (h : ∀ s t o, R s t → ∃ s', step s o = some (s', (spec t o).2) ∧ R s' (spec t o).1) (os : List ο) (s : σ) (t : τ)
    (hR : R s t) : ∃ s', runAll step s os = some (s', (specAll spec t os).2) ∧ R s' (specAll spec t os).1 := by
  induction os generalizing s t with
  | nil => exact ⟨s, rfl, hR⟩
  | cons o os ih =>
    obtain ⟨s1, e1, h1⟩ := h s t o hR
    obtain ⟨s2, e2, h2⟩ := ih s1 _ h1
    refine ⟨s2, ?_, h2⟩
    unfold runAll specAll
    simp only [e1, e2]

theorem bool_decide {r : Bool} {p : Prop} [Decidable p] (h : r = true ↔ p) : r = decide p := by
  rw [Bool.eq_iff_iff, h, decide_eq_true_iff]

open Classical in
/-- **C19, sets.** Every history of `add`, `remove`, `has` and `clear` gives the answers of the mathematical set and keeps
the keys strictly ascending. -/
theorem C19_set_history (ho : TotalOrder cmp) (os : List (SetOp K)) :
    ∃ l, runAll (setExec cmp) [] os = some (l, (specAll setSpec ∅ os).2) ∧ Rep cmp l (specAll setSpec ∅ os).1 := by
  apply runAll_refines (Rep cmp) _ _ _ os [] ∅ Rep_empty
  intro l S o h
  cases o with
  | add k =>
    obtain ⟨l', r, e, h', hr⟩ := C19_add ho h k
    exact ⟨l', by simp only [setExec, setSpec, e, Option.map_some, ← bool_decide hr], h'⟩
  | remove k =>
    obtain ⟨l', r, e, h', hr⟩ := C19_remove ho h k
    exact ⟨l', by simp only [setExec, setSpec, e, Option.map_some, ← bool_decide hr], h'⟩
  | has k =>
    obtain ⟨r, e, hr⟩ := C19_has ho h k
    exact ⟨l, by simp only [setExec, setSpec, e, Option.map_some, ← bool_decide hr], h⟩
  | clear => exact ⟨[], rfl, Rep_empty⟩

example : runAll (setExec Verif.Prelude.cmpPrim) [] [.add 5, .add 2, .add 5, .add 9, .remove 2, .has 2, .has 9] =
    some ([5, 9], [some true, some true, some false, some true, some true, some false, some true]) := by decide +kernel

end Verif.Flat
