import Verif.HashFill
import Mathlib.Data.List.Induction
/-!
# The operations on a healthy map, in terms of its pairs
-/
namespace Verif.Hash
variable {K V : Type} [DecidableEq K]

/-- The pairs in the map, in the order of the data array. -/
def ents (m : Map K V) : List (K × V) := m.data.map (fun e => (e.key, e.value))

omit [DecidableEq K] in
theorem ents_keys (m : Map K V) : (ents m).map Prod.fst = m.data.map DEnt.key := by
  unfold ents; rw [List.map_map]; rfl

omit [DecidableEq K] in
theorem ents_core (m : Map K V) : ents m = (m.data.map core).map (fun c => (c.1, c.2.1)) := by
  unfold ents; rw [List.map_map]; rfl

theorem swap_remove_perm {α : Type} (l : List α) (i : Nat) (hi : i < l.length) (z : α) (hz : l[l.length - 1]? = some z) :
    ((l.set i z).dropLast).Perm (l.eraseIdx i) := by
  rcases List.eq_nil_or_concat l with rfl | ⟨l0, y, rfl⟩
  · simp at hi
  rw [List.concat_eq_append] at *
  have : y = z := by simpa using hz
  subst this
  by_cases c : i < l0.length
  · rw [List.set_append_left _ _ c, List.dropLast_concat, List.eraseIdx_append_of_lt_length c]
    refine (List.set_perm_cons_eraseIdx c y).trans ?_
    exact (List.perm_append_singleton y _).symm
  · have e : i = l0.length := by simp at hi; omega
    subst e
    rw [List.set_append_right _ _ (Nat.le_refl _), List.eraseIdx_append_of_length_le (Nat.le_refl _)]
    simp

/-- Removing a key that is in the map. -/
theorem WF.remove {hf : K → Nat} {m : Map K V} (w : WF hf m) {x : Nat} {e : DEnt K V} (he : m.data[x]? = some e) :
    ∃ m', Verif.Hash.remove m e.key e.hash = .ok (m', some e.value) ∧ WF hf m' ∧
      ∃ z, (ents m)[(ents m).length - 1]? = some z ∧ ents m' = ((ents m).set x z).dropLast := by
  obtain ⟨ch, l⟩ := w.linked
  have hxl := (List.getElem?_eq_some_iff.mp he).1
  obtain ⟨i, A, B, hi, oi, eh, eA, er⟩ := w.route_found l (x := x + 1) (e := e) (by omega) he
  obtain ⟨m1, e1, rh1, uq1, l1, co1, ch1, lk1⟩ := w.unlink l (x := x + 1) (e := e) (by simpa using he) hi oi eh eA
  have len1 : m1.data.length = m.data.length := by
    have := congrArg List.length co1; simpa using this
  obtain ⟨eL, hL⟩ : ∃ eL, m1.data[m1.data.length - 1]? = some eL := ⟨_, List.getElem?_eq_getElem (by omega)⟩
  obtain ⟨m2, e2, pw2, rh2, uq2, co2, ch2, lk2⟩ := fillGap_ok (idx := m1.index) (d := m1.data) (x := x + 1) (ch := ch1)
    (by rw [l1]; exact w.pw) rh1 uq1 lk1 (by omega) (by omega) hL
  refine ⟨m2, ?_, ⟨pw2, rh2, uq2, ?_, ?_, ch2, lk2⟩, (eL.key, eL.value), ?_, ?_⟩
  · unfold Verif.Hash.remove
    rw [er]
    simp only [bind, Except.bind]
    rw [dat_ok (by omega) (by simpa using he), e1]
    simp only
    rw [e2]
  · -- keys stay distinct
    have hk : m2.data.map DEnt.key = (m2.data.map core).map Prod.fst := by rw [List.map_map]; rfl
    have hkL : (m.data.map DEnt.key)[(m.data.map DEnt.key).length - 1]? = some eL.key := by
      have h1 : m.data.map DEnt.key = (m1.data.map core).map Prod.fst := by rw [co1, List.map_map]; rfl
      rw [h1]
      simp only [List.length_map, List.getElem?_map, hL, Option.map_some]
      rfl
    have hk2 : m2.data.map DEnt.key = ((m.data.map DEnt.key).set x eL.key).dropLast := by
      rw [hk, co2, co1, List.map_dropLast, List.map_set, List.map_map]
      rfl
    rw [hk2]
    have := swap_remove_perm (m.data.map DEnt.key) x (by simpa using hxl) eL.key hkL
    rw [this.nodup_iff]
    exact w.keys.sublist (List.eraseIdx_sublist ..)
  · intro e' he'
    have hc : core e' ∈ m2.data.map core := List.mem_map_of_mem he'
    rw [co2] at hc
    have := List.mem_of_mem_dropLast hc
    have hcore : ∀ c ∈ m.data.map core, c.2.2 = hf c.1 := by
      intro c hc
      obtain ⟨e1, h1, rfl⟩ := List.mem_map.mp hc
      exact w.hashes e1 h1
    rcases List.mem_or_eq_of_mem_set this with h1 | h1
    · rw [co1] at h1; exact hcore _ h1
    · have h2 : core eL ∈ m.data.map core := by rw [← co1]; exact List.mem_map_of_mem (List.mem_of_getElem? hL)
      rw [← h1] at h2
      exact hcore _ h2
  · rw [ents_core, ← co1]
    simp [hL, core]
  · rw [ents_core, ents_core, co2, co1, List.map_dropLast, List.map_set]
    rfl

/-- Removing or looking up a key that is not in the map. -/
theorem Weak.route_absent {hf : K → Nat} {m : Map K V} (w : Weak hf m) {key : K} (h : Nat)
    (ha : ∀ e ∈ m.data, e.key ≠ key) : ∃ r, route m key h = .ok r ∧ RouteOk m key h r ∧ ∀ i x c, r ≠ .found i x c := by
  obtain ⟨r, er, rk⟩ := w.route_ok key h
  refine ⟨r, er, rk, ?_⟩
  rintro i x c rfl
  obtain ⟨_, e, he, hk⟩ := w.found_key er
  exact ha e (List.mem_of_getElem? he) hk

theorem remove_absent {hf : K → Nat} {m : Map K V} (w : Weak hf m) {key : K} (h : Nat)
    (ha : ∀ e ∈ m.data, e.key ≠ key) : Verif.Hash.remove m key h = .ok (m, none) := by
  obtain ⟨r, er, _, nf⟩ := w.route_absent h ha
  unfold Verif.Hash.remove
  rw [er]
  simp only [bind, Except.bind]

theorem WF.ifRef_found {hf : K → Nat} {m : Map K V} (w : WF hf m) {x : Nat} {e : DEnt K V} (f : V → V)
    (he : m.data[x]? = some e) :
    ∃ m', ifRef m e.key e.hash f = .ok (m', some e.value) ∧ WF hf m' ∧
      ents m' = (ents m).set x (e.key, f e.value) := by
  obtain ⟨ch, l⟩ := w.linked
  obtain ⟨i, A, B, hi, oi, eh, eA, er⟩ := w.route_found l (x := x + 1) (e := e) (by omega) he
  unfold ifRef
  rw [er]
  simp only [bind, Except.bind]
  rw [dat_ok (by omega) (by simpa using he)]
  simp only
  rw [modValue_ok f (by omega) (by simpa using he)]
  refine ⟨_, rfl, ?_, ?_⟩
  · exact w.setValue (f e.value) he
  · simp [ents, List.map_set]

theorem ifRef_absent {hf : K → Nat} {m : Map K V} (w : Weak hf m) {key : K} (h : Nat) (f : V → V)
    (ha : ∀ e ∈ m.data, e.key ≠ key) : ifRef m key h f = .ok (m, none) := by
  obtain ⟨r, er, _, nf⟩ := w.route_absent h ha
  unfold ifRef
  rw [er]
  simp only [bind, Except.bind]

/-! ## Growing until there is room -/

/-- The number of slots in use. -/
def cnt (idx : List IEnt) : Nat := idx.countP (fun e => e.pos ≠ 0)

theorem card_occ (idx : List IEnt) : ((Finset.range idx.length).filter (fun p => Occ idx p)).card = cnt idx := by
  induction idx using List.reverseRecOn with
  | nil => rfl
  | append_singleton l a ih =>
    have hl : (l ++ [a]).length = l.length + 1 := by simp
    have ho : ∀ p < l.length, Occ (l ++ [a]) p ↔ Occ l p := by
      intro p hp
      unfold Occ at'
      rw [List.getD_append _ _ _ _ hp]
    have ha : Occ (l ++ [a]) l.length ↔ a.pos ≠ 0 := by
      unfold Occ at'
      rw [List.getD_append_right _ _ _ _ (Nat.le_refl _)]
      simp
    rw [hl, Finset.range_add_one, Finset.filter_insert]
    have hf : (Finset.range l.length).filter (fun p => Occ (l ++ [a]) p) = (Finset.range l.length).filter (fun p => Occ l p) := by
      apply Finset.filter_congr
      intro p hp
      exact ho p (Finset.mem_range.mp hp)
    rw [hf]
    unfold cnt at ih ⊢
    rw [List.countP_append]
    by_cases c : a.pos ≠ 0
    · rw [if_pos (ha.mpr c), Finset.card_insert_of_notMem (by simp), ih]
      simp [c]
    · rw [if_neg (fun h => c (ha.mp h)), ih]
      simp at c
      simp [c]

theorem busy_le_cnt {idx : List IEnt} {h n : Nat} (hn : n ≤ idx.length)
    (busy : ∀ j < n, Occ idx ((h + j) % idx.length)) : n ≤ cnt idx := by
  rcases Nat.eq_zero_or_pos n with rfl | hp
  · omega
  have hL : 0 < idx.length := by omega
  rw [← card_occ]
  have : ((Finset.range n).image (fun j => (h + j) % idx.length)).card = n := by
    rw [Finset.card_image_of_injOn, Finset.card_range]
    intro a ha b hb e
    simp only [Finset.coe_range, Set.mem_Iio] at ha hb
    exact slot_inj (by omega) (by omega) e
  rw [← this]
  apply Finset.card_le_card
  intro p hp
  obtain ⟨j, hj, rfl⟩ := Finset.mem_image.mp hp
  rw [Finset.mem_filter, Finset.mem_range]
  exact ⟨Nat.mod_lt _ hL, busy j (Finset.mem_range.mp hj)⟩

theorem maxProbes_grown {L : Nat} (h : Pow L) : maxProbes (grownLen L) = maxProbes L + 1 := by
  unfold grownLen
  rcases h with rfl | ⟨k, hk, rfl⟩
  · rfl
  · have : max (2 ^ k * 2) 2 = 2 ^ (k + 1) := by
      have : 2 ≤ 2 ^ k := by
        calc 2 = 2 ^ 1 := rfl
          _ ≤ 2 ^ k := Nat.pow_le_pow_right (by omega) hk
      rw [Nat.pow_succ]; omega
    rw [this, maxProbes_two_pow, maxProbes_two_pow]

theorem widened_mem (idx : List IEnt) (e : IEnt) (he : e.pos ≠ 0) : e ∈ widened idx ↔ e ∈ idx := by
  unfold widened
  rw [List.mem_append]
  constructor
  · rintro (h | h)
    · exact h
    · exfalso
      rw [(List.mem_replicate.mp h).2] at he
      exact he rfl
  · exact Or.inl

theorem widened_uniq {idx : List IEnt} (u : Uniq idx) : Uniq (widened idx) := by
  unfold Uniq widened at *
  rw [List.pairwise_append]
  refine ⟨u, ?_, ?_⟩
  · apply List.Pairwise.imp_of_mem (R := fun _ _ => True)
    · intro a b ha _ _ h _
      exact absurd (by rw [(List.mem_replicate.mp ha).2]; rfl) h
    · exact List.pairwise_of_forall (fun _ _ => trivial)
  · intro a _ b hb _ h
    exact absurd (by rw [(List.mem_replicate.mp hb).2]; rfl) h

omit [DecidableEq K] in
/-- A growth, good or bad, keeps every entry reachable through the buckets. -/
theorem Weak.grow {hf : K → Nat} {m : Map K V} (w : Weak hf m) :
    ∃ idx', increaseCapacity m.index = .ok idx' ∧ Weak hf ⟨idx', m.data⟩ ∧
      maxProbes idx'.length = maxProbes m.index.length + 1 ∧ cnt idx' = cnt m.index := by
  obtain ⟨idx', e, pm⟩ := increaseCapacity_total m.index w.pw
  obtain ⟨ch, l⟩ := w.linked
  have hl : idx'.length = grownLen m.index.length := by rw [pm.length_eq, widened_length w.pw]
  refine ⟨idx', e, ⟨?_, ?_, w.keys, w.hashes, ch, l.perm ?_⟩, ?_, ?_⟩
  · show Pow idx'.length
    rw [hl]; exact (grownLen_pow w.pw).1
  · exact (uniq_perm pm).mpr (widened_uniq w.uq)
  · intro e' he'
    rw [pm.mem_iff]; exact widened_mem _ _ he'
  · rw [hl, maxProbes_grown w.pw]
  · unfold cnt
    rw [pm.countP_eq]
    unfold widened
    rw [List.countP_append]
    have : List.countP (fun e : IEnt => decide (e.pos ≠ 0)) (List.replicate (grownLen m.index.length - m.index.length) IEnt.free) = 0 := by
      rw [List.countP_eq_zero]
      intro a ha
      rw [(List.mem_replicate.mp ha).2]
      simp [IEnt.free]
    omega

/-- The search loop of `ref` ends, in range, even when a growth has damaged the index. -/
theorem refLoop_total {hf : K → Nat} (key : K) (init : V) (n : Nat) (m : Map K V) (w : Weak hf m) (hn : 1 ≤ n)
    (hc : cnt m.index + 2 ≤ maxProbes m.index.length + n) :
    ∃ m' pos e, refLoop key (hf key) init n m = .ok (m', pos) ∧ pos ≠ 0 ∧ m'.data[pos - 1]? = some e := by
  induction n generalizing m with
  | zero => omega
  | succ n ih =>
    unfold refLoop
    obtain ⟨r, er, rk⟩ := w.route_ok key (hf key)
    rw [er]
    simp only [bind, Except.bind]
    have hK := pow_maxProbes_le w.pw
    cases rk with
    | found J p c hJ occ eq chain =>
      obtain ⟨h0, e, he, _⟩ := w.found_key er
      exact ⟨m, p, e, rfl, h0, he⟩
    | same J hJ occ eq chain =>
      simp only
      obtain ⟨m', c, e, ed⟩ := insertAt_total m key (hf key) init _ _ (Or.inl ⟨rfl, Nat.mod_lt _ (by omega)⟩)
      rw [e]
      refine ⟨m', _, ⟨key, init, hf key, c⟩, rfl, ?_, ?_⟩
      · rw [ed]; simp
      · rw [ed]; simp
    | free J F hJ hF nocc busy near fair =>
      simp only
      obtain ⟨m', c, e, ed⟩ := insertAt_total m key (hf key) init _ _
        (Or.inr ⟨J, F, by omega, hF, nocc, rfl, rfl⟩)
      rw [e]
      refine ⟨m', _, ⟨key, init, hf key, c⟩, rfl, ?_, ?_⟩
      · rw [ed]; simp
      · rw [ed]; simp
    | unavail busy =>
      simp only
      obtain ⟨idx', e, w', hmp, hcn⟩ := w.grow
      rw [e]
      have := busy_le_cnt hK (fun j hj => (busy j hj).1)
      exact ih ⟨idx', m.data⟩ w' (by omega) (by simp only; omega)

omit [DecidableEq K] in
/-- The map after `n` growths. -/
def growths (m : Map K V) : Nat → Except Err (Map K V)
  | 0 => .ok m
  | n + 1 => do
    let idx ← increaseCapacity m.index
    growths ⟨idx, m.data⟩ n

/-- Whenever `ref` grows the index on behalf of `key`, the grown index passes the assertions of `Verify`. -/
def RefSafe (m : Map K V) (key : K) (hash : Nat) : Prop :=
  ∀ n m', (∀ j ≤ n, ∃ mj, growths m j = .ok mj ∧ route mj key hash = .ok .unavail) → growths m (n + 1) = .ok m' →
    verifyIndex m'.index = true

theorem RefSafe.step {m : Map K V} {key : K} {hash : Nat} (s : RefSafe m key hash)
    (er : route m key hash = .ok .unavail) {idx : List IEnt} (eg : increaseCapacity m.index = .ok idx) :
    verifyIndex idx = true ∧ RefSafe ⟨idx, m.data⟩ key hash := by
  constructor
  · refine s 0 ⟨idx, m.data⟩ ?_ ?_
    · intro j hj
      have : j = 0 := by omega
      subst this
      exact ⟨m, rfl, er⟩
    · simp only [growths, bind, Except.bind, eg]
  · intro n m' h e
    refine s (n + 1) m' ?_ ?_
    · intro j hj
      cases j with
      | zero => exact ⟨m, rfl, er⟩
      | succ j =>
        obtain ⟨mj, e1, e2⟩ := h j (by omega)
        exact ⟨mj, by simp only [growths, bind, Except.bind, eg]; exact e1, e2⟩
    · rw [growths]
      simp only [bind, Except.bind, eg]
      exact e

/-! ## The index assertions of `Verify` are the invariant -/

/-- The bound `Verify` puts on the distance in slot `p`. -/
def maxD (idx : List IEnt) (p : Nat) : Nat :=
  if Occ idx ((p + idx.length - 1) % idx.length) then D idx ((p + idx.length - 1) % idx.length) + 1 else 0

theorem verifyLoop_iff (idx : List IEnt) (es : List IEnt) (i : Nat) (hes : es = idx.drop i) (hi : i ≤ idx.length) (md : Nat)
    (hmd : i < idx.length → md = maxD idx i) :
    verifyLoop idx.length es i md = true ↔
      ∀ p, i ≤ p → p < idx.length → Occ idx p → D idx p < maxProbes idx.length ∧ D idx p ≤ maxD idx p := by
  induction es generalizing i md with
  | nil =>
    have : idx.length ≤ i := List.drop_eq_nil_iff.mp hes.symm
    simp only [verifyLoop, true_iff]
    intro p h1 h2
    omega
  | cons e es ih =>
    have hlt : i < idx.length := by
      by_contra h
      rw [List.drop_eq_nil_iff.mpr (by omega)] at hes
      cases hes
    have he : at' idx i = e ∧ es = idx.drop (i + 1) := by
      rw [List.drop_eq_getElem_cons hlt] at hes
      injection hes with h1 h2
      refine ⟨?_, h2⟩
      unfold at'; rw [List.getD_eq_getElem _ _ hlt]; exact h1.symm
    have hmi := hmd hlt
    have hprev : i + 1 < idx.length → (i + 1 + idx.length - 1) % idx.length = i := by
      intro h
      rw [show i + 1 + idx.length - 1 = i + idx.length by omega, Nat.add_mod_right, Nat.mod_eq_of_lt hlt]
    unfold verifyLoop
    by_cases c : e.pos = 0
    · have no : ¬ Occ idx i := by unfold Occ; rw [he.1]; exact fun h => h c
      rw [if_pos c, ih (i + 1) he.2 (by omega) 0 (fun h => by unfold maxD; rw [hprev h, if_neg no])]
      constructor
      · intro h p h1 h2 op
        by_cases e' : p = i
        · subst e'; exact absurd op no
        · exact h p (by omega) h2 op
      · intro h p h1 h2 op
        exact h p (by omega) h2 op
    · have yes : Occ idx i := by unfold Occ; rw [he.1]; exact c
      rw [if_neg c, Bool.and_eq_true, Bool.and_eq_true, decide_eq_true_eq, decide_eq_true_eq,
        ih (i + 1) he.2 (by omega) _ (fun h => by unfold maxD; rw [hprev h, if_pos yes]; unfold D; rw [he.1])]
      have hD : dist idx.length i e.hash = D idx i := by unfold D; rw [he.1]
      rw [hD, hmi]
      constructor
      · rintro ⟨⟨h1, h2⟩, h3⟩ p h4 h5 op
        by_cases e' : p = i
        · subst e'; exact ⟨h1, h2⟩
        · exact h3 p (by omega) h5 op
      · intro h
        exact ⟨h i (Nat.le_refl _) hlt yes, fun p h1 h2 op => h p (by omega) h2 op⟩

theorem verifyIndex_iff (idx : List IEnt) : verifyIndex idx = true ↔ RH idx := by
  have init : 0 < idx.length → verifyInit idx = maxD idx 0 := by
    intro hL
    unfold verifyInit maxD
    have hp : (0 + idx.length - 1) % idx.length = idx.length - 1 := by
      rw [Nat.zero_add, Nat.mod_eq_of_lt (by omega)]
    have ha : idx.getLast? = some (at' idx (idx.length - 1)) := by
      rw [List.getLast?_eq_getElem?, List.getElem?_eq_getElem (by omega)]
      unfold at'; rw [List.getD_eq_getElem _ _ (by omega)]
    rw [ha, hp]
    simp only
    by_cases c : (at' idx (idx.length - 1)).pos = 0
    · rw [if_pos c, if_neg (fun h => h c)]
    · rw [if_neg c, if_pos (show Occ idx (idx.length - 1) from c)]; rfl
  unfold verifyIndex
  rw [verifyLoop_iff idx idx 0 (by simp) (by omega) _ init]
  constructor
  · intro h
    constructor
    · intro p hp op; exact (h p (by omega) hp op).1
    · intro p hp on dn
      have hq : (p + 1) % idx.length < idx.length := Nat.mod_lt _ (by omega)
      have := (h _ (by omega) hq on).2
      unfold maxD at this
      rw [prev_next hp] at this
      split_ifs at this with c
      · exact ⟨c, this⟩
      · omega
  · intro rh p _ hp op
    refine ⟨rh.bound p hp op, ?_⟩
    by_cases z : D idx p = 0
    · omega
    have hq : (p + idx.length - 1) % idx.length < idx.length := Nat.mod_lt _ (by omega)
    have en := next_prev hp
    obtain ⟨o, d⟩ := rh.link _ hq (en.symm ▸ op) (by rw [en]; exact z)
    unfold maxD
    rw [if_pos o]
    rwa [en] at d

/-- The search loop of `ref` on a healthy map, while growths are good. -/
theorem refLoop_wf {hf : K → Nat} (key : K) (init : V) (n : Nat) (m : Map K V) (w : WF hf m)
    (s : RefSafe m key (hf key)) (m' : Map K V) (pos : Nat)
    (e : refLoop key (hf key) init n m = .ok (m', pos)) :
    WF hf m' ∧ pos ≠ 0 ∧
      ((m'.data = m.data ∧ KeyAt m.data pos key) ∨
       ((∀ e ∈ m.data, e.key ≠ key) ∧ pos = m.data.length + 1 ∧ ∃ c, m'.data = m.data ++ [⟨key, init, hf key, c⟩])) := by
  induction n generalizing m with
  | zero => simp [refLoop] at e
  | succ n ih =>
    by_cases hk : ∃ (x : Nat) (ex : DEnt K V), m.data[x]? = some ex ∧ ex.key = key
    · obtain ⟨x, ex, hx, rfl⟩ := hk
      obtain ⟨ch, l⟩ := w.linked
      have hh := w.hashes ex (List.mem_of_getElem? hx)
      obtain ⟨i, A, B, hi, oi, eh, eA, er⟩ := w.route_found l (x := x + 1) (e := ex) (by omega) hx
      rw [hh] at er
      unfold refLoop at e
      rw [er] at e
      simp only [bind, Except.bind] at e
      injection e with e
      injection e with e1 e2
      subst e1; subst e2
      exact ⟨w, by omega, Or.inl ⟨rfl, ex, by simpa using hx, rfl⟩⟩
    · have ha : ∀ e ∈ m.data, e.key ≠ key := by
        intro e' he' hke
        obtain ⟨x, hx, ex⟩ := List.getElem_of_mem he'
        exact hk ⟨x, e', by rw [List.getElem?_eq_getElem hx, ex], hke⟩
      obtain ⟨r, er, rk, nf⟩ := w.weak.route_absent (hf key) ha
      unfold refLoop at e
      rw [er] at e
      simp only [bind, Except.bind] at e
      cases r with
      | found i x c => exact absurd rfl (nf i x c)
      | avail i fair =>
        simp only at e
        obtain ⟨m1, c, e1, w1, ed⟩ := w.insert (init := init) er ha
        rw [e1] at e
        injection e with e
        injection e with e2 e3
        subst e2; subst e3
        refine ⟨w1, by rw [ed]; simp, Or.inr ⟨ha, by rw [ed]; simp, c, ed⟩⟩
      | unavail =>
        simp only at e
        obtain ⟨idx', eg, w', _, _⟩ := w.weak.grow
        rw [eg] at e
        obtain ⟨v, s'⟩ := s.step er eg
        exact ih ⟨idx', m.data⟩ (w'.wf ((verifyIndex_iff _).mp v)) s' e

end Verif.Hash
