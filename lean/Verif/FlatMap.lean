import Verif.FlatMerge
import Mathlib.Logic.Function.Basic
import Mathlib.Tactic.Linarith
/-!
# Flat maps are maps and counted sets are multisets (C19)
-/
namespace Verif.Flat
open Verif.Prelude (TotalOrder)

variable {K V : Type} {cmp : K → K → Int}

/-- The pair of arrays represents the partial function `f`: sorted keys, one value per key, and `f k = v` exactly when
`v` is stored at the position of `k`. -/
structure MRep (cmp : K → K → Int) (m : Map K V) (f : K → Option V) : Prop where
  sorted : Sorted cmp m.keys
  len : m.keys.length = m.vals.length
  at_ : ∀ k v, f k = some v ↔ ∃ i : Nat, m.keys[i]? = some k ∧ m.vals[i]? = some v

theorem MRep_empty : MRep cmp (⟨[], []⟩ : Map K V) (fun _ => none) := ⟨List.Pairwise.nil, rfl, by simp⟩

theorem idx_unique (ho : TotalOrder cmp) {l : List K} (hs : Sorted cmp l) {i j : Nat} {k : K} (hi : l[i]? = some k)
    (hj : l[j]? = some k) : i = j := by
  obtain ⟨hi', rfl⟩ := List.getElem?_eq_some_iff.1 hi
  obtain ⟨hj', e⟩ := List.getElem?_eq_some_iff.1 hj
  rcases Nat.lt_trichotomy i j with h | h | h
  · have := sorted_lt hs h hj'; rw [e] at this; exact absurd this (irrefl ho _)
  · exact h
  · have := sorted_lt hs h hi'; rw [e] at this; exact absurd this (irrefl ho _)

theorem at_zip (m : Map K V) (k : K) (v : V) :
    (∃ i : Nat, m.keys[i]? = some k ∧ m.vals[i]? = some v) ↔ (k, v) ∈ m.keys.zip m.vals := by
  rw [List.mem_iff_getElem?]
  constructor
  · rintro ⟨i, h1, h2⟩; exact ⟨i, List.getElem?_zip_eq_some.2 ⟨h1, h2⟩⟩
  · rintro ⟨i, h⟩; exact ⟨i, List.getElem?_zip_eq_some.1 h⟩

theorem zip_insertAt {a : List K} {b : List V} (h : a.length = b.length) (i : Nat) (x : K) (y : V) :
    (insertAt a i x).zip (insertAt b i y) = insertAt (a.zip b) i (x, y) := by
  unfold insertAt
  rw [List.zip_append (by simp [h]), List.zip_cons_cons]
  simp only [List.zip_eq_zipWith, List.take_zipWith, List.drop_zipWith]

theorem zip_spliceAt {a : List K} {b : List V} (h : a.length = b.length) (i : Nat) :
    (spliceAt a i).zip (spliceAt b i) = spliceAt (a.zip b) i := by
  unfold spliceAt
  rw [List.zip_append (by simp [h])]
  simp only [List.zip_eq_zipWith, List.take_zipWith, List.drop_zipWith]

theorem insertAt_length {α : Type} (l : List α) (i : Nat) (x : α) : (insertAt l i x).length = l.length + 1 := by
  unfold insertAt; simp; omega

theorem spliceAt_length {α : Type} (l : List α) (i : Nat) : (spliceAt l i).length = l.length - (if i < l.length then 1 else 0) := by
  unfold spliceAt; simp; split <;> omega

open Classical in
theorem MRep_insert (ho : TotalOrder cmp) {m : Map K V} {f : K → Option V} (h : MRep cmp m f) {k : K} {i : Nat}
    (hf : FoundOk cmp m.keys k (.miss i)) (v : V) :
    MRep cmp ⟨insertAt m.keys i k, insertAt m.vals i v⟩ (Function.update f k (some v)) where
  sorted := insertAt_sorted h.sorted hf
  len := by simp only [insertAt_length, h.len]
  at_ := by
    intro k' v'
    rw [at_zip]
    show _ ↔ (k', v') ∈ (insertAt m.keys i k).zip (insertAt m.vals i v)
    rw [zip_insertAt h.len, mem_insertAt, ← at_zip, ← h.at_]
    by_cases hk : k' = k
    · subst hk
      rw [Function.update_self]
      constructor
      · intro e; left; rw [Option.some.inj e]
      · rintro (e | e)
        · rw [(Prod.mk.inj e).2]
        · obtain ⟨j, h1, _⟩ := (h.at_ k' v').1 e
          exact absurd (List.mem_of_getElem? h1) (not_mem_of_miss ho hf)
    · rw [Function.update_of_ne hk]
      constructor
      · exact Or.inr
      · rintro (e | e)
        · exact absurd (Prod.mk.inj e).1 hk
        · exact e

open Classical in
theorem MRep_set (ho : TotalOrder cmp) {m : Map K V} {f : K → Option V} (h : MRep cmp m f) {k : K} {i : Nat}
    (hf : m.keys[i]? = some k) (v : V) :
    MRep cmp ⟨m.keys, m.vals.set i v⟩ (Function.update f k (some v)) where
  sorted := h.sorted
  len := by simp [h.len]
  at_ := by
    intro k' v'
    have hi : i < m.vals.length := by rw [← h.len]; exact (List.getElem?_eq_some_iff.1 hf).1
    by_cases hk : k' = k
    · subst hk
      rw [Function.update_self]
      constructor
      · intro e
        refine ⟨i, hf, ?_⟩
        rw [← e]; simp [hi]
      · rintro ⟨j, h1, h2⟩
        obtain rfl := idx_unique ho h.sorted hf h1
        rw [← h2]; simp [hi]
    · rw [Function.update_of_ne hk, h.at_]
      have hne : ∀ j : Nat, m.keys[j]? = some k' → j ≠ i := by
        rintro j hj rfl
        rw [hf] at hj
        exact hk (Option.some.inj hj).symm
      constructor
      · rintro ⟨j, h1, h2⟩
        refine ⟨j, h1, ?_⟩
        rw [← h2, List.getElem?_set_ne (fun e => hne j h1 e.symm)]
      · rintro ⟨j, h1, h2⟩
        refine ⟨j, h1, ?_⟩
        rwa [List.getElem?_set_ne (fun e => hne j h1 e.symm)] at h2

open Classical in
theorem MRep_splice (ho : TotalOrder cmp) {m : Map K V} {f : K → Option V} (h : MRep cmp m f) {k : K} {i : Nat}
    (hf : m.keys[i]? = some k) : MRep cmp ⟨spliceAt m.keys i, spliceAt m.vals i⟩ (Function.update f k none) where
  sorted := spliceAt_sorted h.sorted i
  len := by simp only [spliceAt_length, h.len]
  at_ := by
    intro k' v'
    rw [at_zip]
    show _ ↔ (k', v') ∈ (spliceAt m.keys i).zip (spliceAt m.vals i)
    have hi : i < m.vals.length := by rw [← h.len]; exact (List.getElem?_eq_some_iff.1 hf).1
    have hz : (m.keys.zip m.vals)[i]? = some (k, m.vals[i]) := List.getElem?_zip_eq_some.2 ⟨hf, List.getElem?_eq_getElem hi⟩
    by_cases hk : k' = k
    · subst hk
      rw [Function.update_self]
      constructor
      · intro e; exact absurd e (by simp)
      · intro e
        have := (List.of_mem_zip e).1
        exact absurd rfl ((mem_spliceAt ho h.sorted hf k').1 this).1
    · rw [Function.update_of_ne hk, h.at_, at_zip, zip_spliceAt h.len]
      conv => lhs; rw [split_at hz]
      unfold spliceAt
      simp only [List.mem_append, List.mem_cons]
      constructor
      · rintro (e | e | e)
        · exact Or.inl e
        · exact absurd (Prod.mk.inj e).1 hk
        · exact Or.inr e
      · rintro (e | e)
        · exact Or.inl e
        · exact Or.inr (Or.inr e)

/-! ## The map operations -/

theorem hit_val {m : Map K V} {f : K → Option V} (h : MRep cmp m f) {k : K} {i : Nat} (hf : m.keys[i]? = some k) :
    ∃ v, m.vals[i]? = some v ∧ f k = some v ∧ i < m.vals.length := by
  have hi : i < m.vals.length := by rw [← h.len]; exact (List.getElem?_eq_some_iff.1 hf).1
  exact ⟨m.vals[i], List.getElem?_eq_getElem hi, (h.at_ _ _).2 ⟨i, hf, List.getElem?_eq_getElem hi⟩, hi⟩

theorem miss_none (ho : TotalOrder cmp) {m : Map K V} {f : K → Option V} (h : MRep cmp m f) {k : K} {i : Nat}
    (hf : FoundOk cmp m.keys k (.miss i)) : f k = none := by
  cases e : f k with
  | none => rfl
  | some v =>
    obtain ⟨j, h1, _⟩ := (h.at_ k v).1 e
    exact absurd (List.mem_of_getElem? h1) (not_mem_of_miss ho hf)

open Classical in
/-- `Map.set` stores the value and says whether the key is new. -/
theorem C19_map_set (ho : TotalOrder cmp) {m : Map K V} {f : K → Option V} (h : MRep cmp m f) (k : K) (v : V) :
    ∃ m', m.set cmp k v = some (m', (f k).isNone) ∧ MRep cmp m' (Function.update f k (some v)) := by
  obtain ⟨r, e, hf⟩ := bfind_ok ho h.sorted k
  unfold Map.set
  rw [e]
  cases r with
  | hit i =>
    obtain ⟨w, _, h2, h3⟩ := hit_val h hf
    simp only
    rw [if_pos h3, h2]
    exact ⟨_, rfl, MRep_set ho h hf v⟩
  | miss i =>
    rw [miss_none ho h hf]
    exact ⟨_, rfl, MRep_insert ho h hf v⟩

/-- `Map.get` is lookup, with the default for a missing key; `Map.has` is "is there a value". -/
theorem C19_map_get (ho : TotalOrder cmp) {m : Map K V} {f : K → Option V} (h : MRep cmp m f) (dflt : V) (k : K) :
    m.get cmp dflt k = some ((f k).getD dflt) ∧ m.has cmp k = some (f k).isSome := by
  obtain ⟨r, e, hf⟩ := bfind_ok ho h.sorted k
  unfold Map.get Map.has Verif.Flat.has
  rw [e]
  cases r with
  | hit i =>
    obtain ⟨w, h1, h2, h3⟩ := hit_val h hf
    simp [h1, h2]
  | miss i =>
    rw [miss_none ho h hf]
    exact ⟨rfl, rfl⟩

open Classical in
/-- `Map.if`: visits the value when there is one, stores what the visitor leaves, or deletes the key if it asks to. -/
theorem C19_map_if (ho : TotalOrder cmp) {m : Map K V} {f : K → Option V} (h : MRep cmp m f) (k : K) (visit : V → V × Bool) :
    ∃ m', m.ifHas cmp k visit = some (m', (f k).isSome) ∧
      MRep cmp m' (Function.update f k ((f k).bind fun v => if (visit v).2 then none else some (visit v).1)) := by
  obtain ⟨r, e, hf⟩ := bfind_ok ho h.sorted k
  unfold Map.ifHas
  rw [e]
  cases r with
  | hit i =>
    obtain ⟨w, h1, h2, h3⟩ := hit_val h hf
    simp only [h1, h2]
    refine ⟨_, rfl, ?_⟩
    have hs := MRep_set ho h hf (visit w).1
    simp only [Option.bind_some]
    cases (visit w).2 with
    | false => exact hs
    | true =>
      have := MRep_splice ho hs hf
      rw [Function.update_idem] at this
      exact this
  | miss i =>
    rw [miss_none ho h hf]
    refine ⟨_, rfl, ?_⟩
    rw [Option.bind_none, ← miss_none ho h hf, Function.update_eq_self]
    exact h

open Classical in
/-- `Map.remove` deletes the key and says whether it was there. -/
theorem C19_map_remove (ho : TotalOrder cmp) {m : Map K V} {f : K → Option V} (h : MRep cmp m f) (k : K) :
    ∃ m', m.remove cmp k = some (m', (f k).isSome) ∧ MRep cmp m' (Function.update f k none) := by
  obtain ⟨m', e, h'⟩ := C19_map_if ho h k fun v => (v, true)
  refine ⟨m', e, ?_⟩
  have : ((f k).bind fun v => if ((v, true) : V × Bool).2 then none else some ((v, true) : V × Bool).1) = none := by
    cases f k <;> rfl
  rw [this] at h'
  exact h'

open Classical in
/-- `Map.ref` gives the position of the key's value, inserting `init()` first when the key is missing; when `init()` throws
the map is unchanged. -/
theorem C19_map_ref (ho : TotalOrder cmp) {m : Map K V} {f : K → Option V} (h : MRep cmp m f) (k : K) (init : Option V) :
    (f k = none ∧ init = none ∧ m.ref cmp k init = some (m, none)) ∨
    (∃ m' i v, m.ref cmp k init = some (m', some i) ∧ (f k).or init = some v ∧ m'.keys[i]? = some k ∧ m'.vals[i]? = some v ∧
      MRep cmp m' (Function.update f k (some v))) := by
  obtain ⟨r, e, hf⟩ := bfind_ok ho h.sorted k
  unfold Map.ref
  rw [e]
  cases r with
  | hit i =>
    obtain ⟨w, h1, h2, h3⟩ := hit_val h hf
    right
    refine ⟨m, i, w, by simp [h3], by rw [h2]; rfl, hf, h1, ?_⟩
    rw [← h2, Function.update_eq_self]
    exact h
  | miss i =>
    have hn := miss_none ho h hf
    cases init with
    | none => left; exact ⟨hn, rfl, rfl⟩
    | some v =>
      right
      have hi : i ≤ m.keys.length := hf.1
      have hi' := hi
      rw [h.len] at hi'
      refine ⟨⟨insertAt m.keys i k, insertAt m.vals i v⟩, i, v, ?_, by rw [hn]; rfl, ?_, ?_, MRep_insert ho h hf v⟩
      · simp only
        rw [if_pos (by rw [insertAt_length]; omega)]
      · simp only [insertAt]
        rw [List.getElem?_append_right (by simp)]
        simp [hi]
      · simp only [insertAt]
        rw [List.getElem?_append_right (by simp)]
        simp [hi']

theorem mapM_some {α β : Type} (g : α → Option β) (l : List α) (out : List β) (hl : l.length = out.length)
    (h : ∀ (i : Nat) (h1 : i < l.length) (h2 : i < out.length), g l[i] = some out[i]) : l.mapM g = some out := by
  induction l generalizing out with
  | nil => cases out with
    | nil => rfl
    | cons b out => exact absurd hl (by simp)
  | cons a l ih => cases out with
    | nil => exact absurd hl (by simp)
    | cons b out =>
      rw [List.mapM_cons]
      have h0 := h 0 (by simp) (by simp)
      simp only [List.getElem_cons_zero] at h0
      rw [h0, ih out (by simpa using hl) (fun i h1 h2 => h (i + 1) (by simpa using h1) (by simpa using h2))]
      rfl

theorem each_eq {m : Map K V} (hl : m.keys.length = m.vals.length) : m.each = some (m.keys.zip m.vals) := by
  unfold Map.each
  apply mapM_some
  · simp [hl]
  · intro i h1 h2
    simp only [List.length_range] at h1
    simp [h1, hl]

/-- `Map.each` visits every key with its value, once, in ascending key order. -/
theorem C19_map_each {m : Map K V} {f : K → Option V} (h : MRep cmp m f) :
    ∃ l, m.each = some l ∧ l.Pairwise (fun a b => cmp a.1 b.1 < 0) ∧ ∀ k v, (k, v) ∈ l ↔ f k = some v := by
  refine ⟨_, each_eq h.len, ?_, fun k v => by rw [h.at_, at_zip]⟩
  have : (m.keys.zip m.vals).map Prod.fst = m.keys := List.map_fst_zip (by have := h.len; omega)
  rw [← List.pairwise_map (f := Prod.fst) (R := fun a b => cmp a b < 0), this]
  exact h.sorted

/-- Map operations, for histories; `upd` is `ref(key, init)` followed by a write of `g(value)` through the reference. -/
inductive MapOp (K V : Type)
  | set (k : K) (v : V) | remove (k : K) | get (k : K) | has (k : K) | upd (k : K) (init : V) (g : V → V) | clear

/-- The code; answers are a boolean or a value. -/
def mapExec (cmp : K → K → Int) (dflt : V) (m : Map K V) : MapOp K V → Option (Map K V × Option (Bool ⊕ V))
  | .set k v => (m.set cmp k v).map fun p => (p.1, some (.inl p.2))
  | .remove k => (m.remove cmp k).map fun p => (p.1, some (.inl p.2))
  | .get k => (m.get cmp dflt k).map fun v => (m, some (.inr v))
  | .has k => (m.has cmp k).map fun r => (m, some (.inl r))
  | .upd k init g =>
    match m.ref cmp k (some init) with
    | some (m', some i) => (m'.vals[i]?).map fun v => (⟨m'.keys, m'.vals.set i (g v)⟩, some (.inr v))
    | _ => none
  | .clear => some (m.clear, none)

open Classical in
/-- The specification on partial functions. -/
noncomputable def mapSpec (dflt : V) (f : K → Option V) : MapOp K V → (K → Option V) × Option (Bool ⊕ V)
  | .set k v => (Function.update f k (some v), some (.inl (f k).isNone))
  | .remove k => (Function.update f k none, some (.inl (f k).isSome))
  | .get k => (f, some (.inr ((f k).getD dflt)))
  | .has k => (f, some (.inl (f k).isSome))
  | .upd k init g => (Function.update f k (some (g ((f k).getD init))), some (.inr ((f k).getD init)))
  | .clear => (fun _ => none, none)

open Classical in
/-- **C19, maps.** Every history of calls gives the answers of the mathematical map and keeps the representation. -/
theorem C19_map_history (ho : TotalOrder cmp) (dflt : V) (os : List (MapOp K V)) :
    ∃ m, runAll (mapExec cmp dflt) (⟨[], []⟩ : Map K V) os = some (m, (specAll (mapSpec dflt) (fun _ => none) os).2) ∧
      MRep cmp m (specAll (mapSpec dflt) (fun _ => none) os).1 := by
  apply runAll_refines (MRep cmp) _ _ _ os _ _ MRep_empty
  intro m f o h
  cases o with
  | set k v =>
    obtain ⟨m', e, h'⟩ := C19_map_set ho h k v
    exact ⟨m', by simp only [mapExec, mapSpec, e, Option.map_some], h'⟩
  | remove k =>
    obtain ⟨m', e, h'⟩ := C19_map_remove ho h k
    exact ⟨m', by simp only [mapExec, mapSpec, e, Option.map_some], h'⟩
  | get k =>
    exact ⟨m, by simp only [mapExec, mapSpec, (C19_map_get ho h dflt k).1, Option.map_some], h⟩
  | has k =>
    exact ⟨m, by simp only [mapExec, mapSpec, (C19_map_get ho h dflt k).2, Option.map_some], h⟩
  | upd k init g =>
    rcases C19_map_ref ho h k (some init) with ⟨_, h0, _⟩ | ⟨m', i, v, e, hv, hk, hvi, h'⟩
    · exact absurd h0 (by simp)
    · have hgv : (f k).getD init = v := by
        cases hfk : f k <;> rw [hfk] at hv <;> simpa using hv
      refine ⟨⟨m'.keys, m'.vals.set i (g v)⟩, ?_, ?_⟩
      · simp only [mapExec, mapSpec, e, hvi, Option.map_some, hgv]
      · have := MRep_set ho h' hk (g v)
        rw [Function.update_idem] at this
        simp only [mapSpec, hgv]
        exact this
  | clear => exact ⟨⟨[], []⟩, rfl, MRep_empty⟩

/-! ## Counted sets -/

/-- The counted set represents the multiset with multiplicities `f` (each within `i32`). -/
structure CRep (cmp : K → K → Int) (m : Map K Int) (f : K → Nat) : Prop where
  rep : MRep cmp m (fun k => if f k = 0 then none else some (f k : Int))
  small : ∀ k, f k < 2 ^ 31

theorem wrap32_small {n : Int} (h0 : -(2 ^ 31) ≤ n) (h1 : n < 2 ^ 31) : wrap32 n = n := by
  unfold wrap32
  rw [Int.bmod_def]
  split <;> omega

open Classical in
theorem update_count (f : K → Nat) (k : K) (n : Nat) :
    (fun j => if Function.update f k n j = 0 then none else some ((Function.update f k n j : Nat) : Int)) =
      Function.update (fun j => if f j = 0 then none else some (f j : Int)) k (if n = 0 then none else some (n : Int)) := by
  funext j
  by_cases hj : j = k
  · subst hj; simp
  · simp [hj]

open Classical in
/-- `incr` adds one and says whether the key is new. -/
theorem C19_incr (ho : TotalOrder cmp) {m : Map K Int} {f : K → Nat} (h : CRep cmp m f) (k : K) (hs : f k + 1 < 2 ^ 31) :
    ∃ m', incr cmp m k = some (m', decide (f k = 0)) ∧ CRep cmp m' (Function.update f k (f k + 1)) := by
  unfold incr
  rcases C19_map_ref ho h.rep k (some 0) with ⟨_, h0, _⟩ | ⟨m', i, v, e, hv, hk, hvi, h'⟩
  · exact absurd h0 (by simp)
  · have hvf : v = (f k : Int) := by
      by_cases hf : f k = 0
      · rw [if_pos hf] at hv; simp at hv; omega
      · rw [if_neg hf] at hv; simp at hv; omega
    rw [e]
    simp only [hvi]
    refine ⟨⟨m'.keys, m'.vals.set i (wrap32 (v + 1))⟩, ?_, ⟨?_, ?_⟩⟩
    rotate_left
    · rw [update_count, if_neg (by omega)]
      have := MRep_set ho h' hk (wrap32 (v + 1))
      rw [Function.update_idem] at this
      have hw : wrap32 (v + 1) = ((f k + 1 : Nat) : Int) := by rw [wrap32_small (by omega) (by omega)]; omega
      rw [hw] at this ⊢
      exact this
    · intro j
      by_cases hj : j = k
      · subst hj; rw [Function.update_self]; exact hs
      · rw [Function.update_of_ne hj]; exact h.small j
    · have : decide (v = 0) = decide (f k = 0) := by rw [hvf]; simp
      rw [this]

open Classical in
/-- `try_decr` takes one away and says whether the key is gone. -/
theorem C19_tryDecr (ho : TotalOrder cmp) {m : Map K Int} {f : K → Nat} (h : CRep cmp m f) (k : K) :
    ∃ m', tryDecr cmp m k = some (m', decide (f k = 1)) ∧ CRep cmp m' (Function.update f k (f k - 1)) := by
  unfold tryDecr
  obtain ⟨r, e, hf⟩ := bfind_ok ho h.rep.sorted k
  have hsm := h.small k
  have hsmall : ∀ j, Function.update f k (f k - 1) j < 2 ^ 31 := by
    intro j
    by_cases hj : j = k
    · subst hj; rw [Function.update_self]; omega
    · rw [Function.update_of_ne hj]; exact h.small j
  cases r with
  | hit i =>
    obtain ⟨w, h1, h2, h3⟩ := hit_val h.rep hf
    have hf0 : f k ≠ 0 := by intro h0; rw [if_pos h0] at h2; exact absurd h2 (by simp)
    rw [if_neg hf0] at h2
    have hw : w = (f k : Int) := (Option.some.inj h2).symm
    obtain ⟨m', e', h'⟩ := C19_map_if ho h.rep k decrVisit
    simp only [e, h1, e', Option.map_some]
    have hd : decrVisit w = (((f k - 1 : Nat) : Int), decide (f k = 1)) := by
      unfold decrVisit
      rw [hw, wrap32_small (by omega) (by omega)]
      have a : ((f k : Int) - 1) = ((f k - 1 : Nat) : Int) := by omega
      rw [a]
      congr 1
      apply decide_eq_decide.2
      omega
    refine ⟨m', by rw [hd], ?_, hsmall⟩
    rw [update_count]
    rw [if_neg hf0] at h'
    simp only [Option.bind_some] at h'
    rw [← hw, hd] at h'
    simp only [decide_eq_true_eq] at h'
    by_cases h1' : f k = 1
    · rw [if_pos h1'] at h'
      rw [if_pos (by omega)]
      exact h'
    · rw [if_neg h1'] at h'
      rw [if_neg (by omega)]
      exact h'
  | miss i =>
    have hn := miss_none ho h.rep hf
    have hf0 : f k = 0 := by by_contra hc; rw [if_neg hc] at hn; exact absurd hn (by simp)
    simp only [e]
    refine ⟨m, by rw [hf0]; rfl, ?_, hsmall⟩
    rw [hf0, show 0 - 1 = f k by omega, Function.update_eq_self]
    exact h.rep

/-- `count` is the multiplicity. -/
theorem C19_count (ho : TotalOrder cmp) {m : Map K Int} {f : K → Nat} (h : CRep cmp m f) (k : K) :
    count cmp m k = some (f k : Int) := by
  unfold count
  rw [(C19_map_get ho h.rep 0 k).1]
  by_cases hf : f k = 0
  · rw [if_pos hf, hf]; rfl
  · rw [if_neg hf]; rfl

theorem foldl_wrap (l : List (K × Int)) (t : Int) :
    l.foldl (fun t kv => wrap32 (t + kv.2)) (wrap32 t) = wrap32 (t + (l.map Prod.snd).sum) := by
  induction l generalizing t with
  | nil => simp
  | cons a l ih =>
    rw [List.foldl_cons, List.map_cons, List.sum_cons, ← Int.add_assoc]
    have : wrap32 (wrap32 t + a.2) = wrap32 (t + a.2) := by unfold wrap32; simp
    rw [this, ih]

/-- `total` is the sum of the multiplicities over the distinct keys (as an `i32`). -/
theorem C19_total {m : Map K Int} {f : K → Nat} (h : CRep cmp m f) (ho : TotalOrder cmp) :
    ∃ l : List K, l.Nodup ∧ (∀ k, k ∈ l ↔ f k ≠ 0) ∧ total m = some (wrap32 ((l.map f).sum : Nat)) := by
  refine ⟨m.keys, ?_, ?_, ?_⟩
  · refine List.Pairwise.imp (R := fun a b => cmp a b < 0) ?_ h.rep.sorted
    rintro a b hab rfl
    exact irrefl ho a hab
  · intro k
    constructor
    · intro hk
      obtain ⟨i, hi⟩ := List.mem_iff_getElem?.1 hk
      obtain ⟨v, _, h2, _⟩ := hit_val h.rep hi
      intro h0; rw [if_pos h0] at h2; exact absurd h2 (by simp)
    · intro hk
      obtain ⟨i, h1, _⟩ := (h.rep.at_ k (f k)).1 (by rw [if_neg hk])
      exact List.mem_of_getElem? h1
  · unfold total
    rw [each_eq h.rep.len, Option.map_some]
    have h0 : (0 : Int) = wrap32 0 := by decide
    conv => lhs; rw [h0, foldl_wrap]
    rw [Int.zero_add, List.map_snd_zip (by have := h.rep.len; omega)]
    have hv : m.vals = m.keys.map fun k => (f k : Int) := by
      apply List.ext_getElem?
      intro i
      rw [List.getElem?_map]
      cases hi : m.keys[i]? with
      | none =>
        rw [List.getElem?_eq_none_iff] at hi
        simp only [Option.map_none]
        rw [List.getElem?_eq_none_iff, ← h.rep.len]
        exact hi
      | some k =>
        obtain ⟨v, h1, h2, _⟩ := hit_val h.rep hi
        rw [h1]
        by_cases hf : f k = 0
        · rw [if_pos hf] at h2; exact absurd h2 (by simp)
        · rw [if_neg hf] at h2; rw [Option.map_some, ← Option.some.inj h2]
    rw [hv]
    congr 2
    induction m.keys with
    | nil => rfl
    | cons a l ih => simp [ih]

/-- Counted-set operations, for histories. -/
inductive CntOp (K : Type)
  | incr (k : K) | tryDecr (k : K) | count (k : K) | remove (k : K) | clear

/-- The code. -/
def cntExec (cmp : K → K → Int) (m : Map K Int) : CntOp K → Option (Map K Int × Option (Bool ⊕ Int))
  | .incr k => (Verif.Flat.incr cmp m k).map fun p => (p.1, some (.inl p.2))
  | .tryDecr k => (Verif.Flat.tryDecr cmp m k).map fun p => (p.1, some (.inl p.2))
  | .count k => (Verif.Flat.count cmp m k).map fun n => (m, some (.inr n))
  | .remove k => (m.remove cmp k).map fun p => (p.1, some (.inl p.2))
  | .clear => some (m.clear, none)

open Classical in
/-- The specification on multiplicities. -/
noncomputable def cntSpec (f : K → Nat) : CntOp K → (K → Nat) × Option (Bool ⊕ Int)
  | .incr k => (Function.update f k (f k + 1), some (.inl (decide (f k = 0))))
  | .tryDecr k => (Function.update f k (f k - 1), some (.inl (decide (f k = 1))))
  | .count k => (f, some (.inr (f k)))
  | .remove k => (Function.update f k 0, some (.inl (decide (f k ≠ 0))))
  | .clear => (fun _ => 0, none)

open Classical in
/-- **C19, counted sets.** Every history of fewer than 2^31 calls gives the answers of the mathematical multiset. -/
theorem C19_counted_history (ho : TotalOrder cmp) (os : List (CntOp K)) (hn : os.length < 2 ^ 31) :
    ∃ m, runAll (cntExec cmp) (⟨[], []⟩ : Map K Int) os = some (m, (specAll cntSpec (fun _ => 0) os).2) ∧
      CRep cmp m (specAll cntSpec (fun _ => 0) os).1 := by
  suffices H : ∀ (os : List (CntOp K)) (m : Map K Int) (f : K → Nat), CRep cmp m f → (∀ k, f k + os.length < 2 ^ 31) →
      ∃ m', runAll (cntExec cmp) m os = some (m', (specAll cntSpec f os).2) ∧ CRep cmp m' (specAll cntSpec f os).1 by
    apply H os _ _ ⟨by simpa using MRep_empty, by simp⟩
    intro k; simpa using hn
  intro os
  induction os with
  | nil => intro m f h _; exact ⟨m, rfl, h⟩
  | cons o os ih =>
    intro m f h hb
    simp only [List.length_cons] at hb
    have step : ∃ m', cntExec cmp m o = some (m', (cntSpec f o).2) ∧ CRep cmp m' (cntSpec f o).1 ∧
        ∀ k, (cntSpec f o).1 k + os.length < 2 ^ 31 := by
      have upd : ∀ (k : K) (n : Nat), n ≤ f k + 1 → ∀ j, Function.update f k n j + os.length < 2 ^ 31 := by
        intro k n hn j
        by_cases hj : j = k
        · subst hj; rw [Function.update_self]; have := hb j; omega
        · rw [Function.update_of_ne hj]; have := hb j; omega
      cases o with
      | incr k =>
        obtain ⟨m', e, h'⟩ := C19_incr ho h k (by have := hb k; omega)
        exact ⟨m', by simp only [cntExec, cntSpec, e, Option.map_some], h', upd k _ (by omega)⟩
      | tryDecr k =>
        obtain ⟨m', e, h'⟩ := C19_tryDecr ho h k
        exact ⟨m', by simp only [cntExec, cntSpec, e, Option.map_some], h', upd k _ (by omega)⟩
      | count k =>
        exact ⟨m, by simp only [cntExec, cntSpec, C19_count ho h k, Option.map_some], h, fun j => by have := hb j; simp only [cntSpec]; omega⟩
      | remove k =>
        obtain ⟨m', e, h'⟩ := C19_map_remove ho h.rep k
        refine ⟨m', ?_, ⟨?_, ?_⟩, upd k 0 (by omega)⟩
        · simp only [cntExec, cntSpec, e, Option.map_some]
          by_cases hf : f k = 0 <;> simp [hf]
        · have := update_count f k 0
          rw [if_pos rfl] at this
          rw [← this] at h'
          exact h'
        · intro j
          have := upd k 0 (by omega) j
          simp only [cntSpec]; omega
      | clear => exact ⟨⟨[], []⟩, rfl, ⟨by simpa [cntSpec] using MRep_empty, by simp [cntSpec]⟩, fun k => by simp only [cntSpec]; have := hb k; omega⟩
    obtain ⟨m1, e1, h1, hb1⟩ := step
    obtain ⟨m2, e2, h2⟩ := ih m1 _ h1 hb1
    refine ⟨m2, ?_, h2⟩
    unfold runAll specAll
    simp only [e1, e2]

example : runAll (cntExec Verif.Prelude.cmpPrim) ⟨[], []⟩ [.incr 4, .incr 2, .incr 4, .tryDecr 4, .count 4, .tryDecr 4, .count 4]
    = some (⟨[2], [1]⟩, [some (.inl true), some (.inl true), some (.inl false), some (.inl false), some (.inr 1),
      some (.inl true), some (.inr 0)]) := by decide +kernel

end Verif.Flat
