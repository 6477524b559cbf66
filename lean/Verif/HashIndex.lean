import Verif.HashArith
import Mathlib.Data.List.Perm.Basic
import Mathlib.Data.List.GetD
import Mathlib.Tactic.ByContra
import Mathlib.Algebra.BigOperators.Group.Finset.Basic
import Mathlib.Algebra.Order.BigOperators.Group.Finset
/-!
# The Robin-Hood index: invariant, lookup, insertion, compaction
-/
namespace Verif.Hash

/-- Slot `p`, a free slot when out of range. -/
def at' (idx : List IEnt) (p : Nat) : IEnt := idx.getD p IEnt.free

/-- Slot `p` is in use. -/
def Occ (idx : List IEnt) (p : Nat) : Prop := (at' idx p).pos ≠ 0

instance (idx : List IEnt) (p : Nat) : Decidable (Occ idx p) := inferInstanceAs (Decidable (_ ≠ _))

/-- The probe distance of the entry in slot `p`. -/
def D (idx : List IEnt) (p : Nat) : Nat := dist idx.length p (at' idx p).hash

/-- The Robin-Hood invariant: probe distances stay below the limit, and an entry away from its ideal slot follows an
entry at least as far from its own, less one. -/
structure RH (idx : List IEnt) : Prop where
  bound : ∀ p < idx.length, Occ idx p → D idx p < maxProbes idx.length
  link : ∀ p < idx.length, Occ idx ((p + 1) % idx.length) → D idx ((p + 1) % idx.length) ≠ 0 →
    Occ idx p ∧ D idx ((p + 1) % idx.length) ≤ D idx p + 1

/-- No two slots in use hold the same hash. -/
def Uniq (idx : List IEnt) : Prop := idx.Pairwise (fun a b => a.pos ≠ 0 → b.pos ≠ 0 → a.hash ≠ b.hash)

/-- The lengths an index can have: 0, 2, 4, 8, … -/
def Pow (L : Nat) : Prop := L = 0 ∨ ∃ k, 1 ≤ k ∧ L = 2 ^ k

/-! ## Reading and writing -/

theorem rd_ok {α : Type} {l : List α} {i : Nat} (h : i < l.length) (d : α) : rd l i = .ok (l.getD i d) := by
  unfold rd
  rw [List.getElem?_eq_getElem h, List.getD_eq_getElem _ _ h]

theorem rd_at {l : List IEnt} {i : Nat} (h : i < l.length) : rd l i = .ok (at' l i) := rd_ok h _

theorem wr_ok {α : Type} {l : List α} {i : Nat} (h : i < l.length) (v : α) : wr l i v = .ok (l.set i v) := by
  unfold wr; rw [if_pos h]

theorem at_set {l : List IEnt} {i : Nat} (h : i < l.length) (v : IEnt) (p : Nat) :
    at' (l.set i v) p = if p = i then v else at' l p := by
  unfold at'
  split_ifs with c
  · subst c
    rw [List.getD_eq_getElem _ _ (by simpa using h)]; simp
  · simp only [List.getD_eq_getElem?_getD]
    rw [List.getElem?_set_ne (by omega)]

theorem at_mem {l : List IEnt} {i : Nat} (h : i < l.length) : at' l i ∈ l := by
  unfold at'; rw [List.getD_eq_getElem _ _ h]; exact List.getElem_mem _

theorem mem_at {l : List IEnt} {e : IEnt} (h : e ∈ l) : ∃ i < l.length, at' l i = e := by
  obtain ⟨i, hi, e⟩ := List.getElem_of_mem h
  exact ⟨i, hi, by unfold at'; rw [List.getD_eq_getElem _ _ hi]; exact e⟩

theorem swap_ok {l : List IEnt} {i j : Nat} (hi : i < l.length) (hj : j < l.length) :
    swap l i j = .ok ((l.set i (at' l j)).set j (at' l i)) := by
  unfold swap
  rw [rd_at hi, rd_at hj]
  simp only [bind, Except.bind]
  rw [wr_ok hi]
  simp only
  rw [wr_ok (by simpa using hj)]

/-- The list after a swap. -/
def swapped (l : List IEnt) (i j : Nat) : List IEnt := (l.set i (at' l j)).set j (at' l i)

theorem swapped_length (l : List IEnt) (i j : Nat) : (swapped l i j).length = l.length := by simp [swapped]

theorem at_swapped {l : List IEnt} {i j : Nat} (hi : i < l.length) (hj : j < l.length) (p : Nat) :
    at' (swapped l i j) p = if p = j then at' l i else if p = i then at' l j else at' l p := by
  unfold swapped
  rw [at_set (by simpa using hj), at_set hi]

theorem swapped_perm {l : List IEnt} {i j : Nat} (hi : i < l.length) (hj : j < l.length) :
    (swapped l i j).Perm l := by
  unfold swapped at'
  rw [List.getD_eq_getElem _ _ hi, List.getD_eq_getElem _ _ hj]
  exact List.set_set_perm hi hj

/-! ## Uniqueness of hashes -/

theorem uniq_perm {a b : List IEnt} (h : a.Perm b) : Uniq a ↔ Uniq b := by
  unfold Uniq
  exact h.pairwise_iff (fun {x y} hxy hy hx e => hxy hx hy e.symm)

theorem uniq_iff (idx : List IEnt) :
    Uniq idx ↔ ∀ p < idx.length, ∀ q < idx.length, Occ idx p → Occ idx q → (at' idx p).hash = (at' idx q).hash → p = q := by
  unfold Uniq
  rw [List.pairwise_iff_getElem]
  constructor
  · intro h p hp q hq op oq e
    unfold Occ at' at *
    rw [List.getD_eq_getElem _ _ hp] at op e
    rw [List.getD_eq_getElem _ _ hq] at oq e
    rcases Nat.lt_trichotomy p q with c | c | c
    · exact absurd e (h p q hp hq c op oq)
    · exact c
    · exact absurd e.symm (h q p hq hp c oq op)
  · intro h p q hp hq c op oq e
    have := h p hp q hq (by unfold Occ at'; rw [List.getD_eq_getElem _ _ hp]; exact op)
      (by unfold Occ at'; rw [List.getD_eq_getElem _ _ hq]; exact oq)
      (by unfold at'; rw [List.getD_eq_getElem _ _ hp, List.getD_eq_getElem _ _ hq]; exact e)
    omega

/-! ## Lookup -/

/-- The slots from the ideal one to the entry are all in use, by entries at least as far from their ideal slots. -/
theorem RH.reach {idx : List IEnt} (h : RH idx) {p : Nat} (hp : p < idx.length) (op : Occ idx p) (n : Nat)
    (hn : n ≤ D idx p) :
    Occ idx (((at' idx p).hash + (D idx p - n)) % idx.length) ∧
      D idx p - n ≤ D idx (((at' idx p).hash + (D idx p - n)) % idx.length) := by
  have hL : 0 < idx.length := by omega
  induction n with
  | zero =>
    have e := slot_dist hp (at' idx p).hash
    change ((at' idx p).hash + D idx p) % idx.length = p at e
    rw [Nat.sub_zero, e]
    exact ⟨op, Nat.le_refl _⟩
  | succ n ih =>
    obtain ⟨o, d⟩ := ih (by omega)
    have e : ((at' idx p).hash + (D idx p - n)) % idx.length =
        (((at' idx p).hash + (D idx p - (n + 1))) % idx.length + 1) % idx.length := by
      rw [Nat.mod_add_mod]; congr 1; omega
    rw [e] at o d
    obtain ⟨o', d'⟩ := h.link _ (Nat.mod_lt _ hL) o (by omega)
    exact ⟨o', by omega⟩

theorem RH.reach' {idx : List IEnt} (h : RH idx) {p : Nat} (hp : p < idx.length) (op : Occ idx p) (j : Nat)
    (hj : j ≤ D idx p) :
    Occ idx (((at' idx p).hash + j) % idx.length) ∧ j ≤ D idx (((at' idx p).hash + j) % idx.length) := by
  have := h.reach hp op (D idx p - j) (by omega)
  rwa [show D idx p - (D idx p - j) = j by omega] at this

section
variable {K V : Type} [DecidableEq K]

/-- What `route` promises about the index. -/
inductive RouteOk (m : Map K V) (key : K) (h : Nat) : Route → Prop
  | found (J p c : Nat) (hJ : J < maxProbes m.index.length)
      (occ : Occ m.index ((h + J) % m.index.length))
      (eq : (at' m.index ((h + J) % m.index.length)).hash = h)
      (chain : chainFind m.data key m.data.length (at' m.index ((h + J) % m.index.length)).pos 0 = .ok (some (p, c))) :
      RouteOk m key h (.found ((h + J) % m.index.length) p c)
  | same (J : Nat) (hJ : J < maxProbes m.index.length)
      (occ : Occ m.index ((h + J) % m.index.length))
      (eq : (at' m.index ((h + J) % m.index.length)).hash = h)
      (chain : chainFind m.data key m.data.length (at' m.index ((h + J) % m.index.length)).pos 0 = .ok none) :
      RouteOk m key h (.avail ((h + J) % m.index.length) ((h + J) % m.index.length))
  | free (J F : Nat) (hJ : J < maxProbes m.index.length) (hF : F ≤ J)
      (nocc : ¬ Occ m.index ((h + J) % m.index.length))
      (busy : ∀ j < J, Occ m.index ((h + j) % m.index.length) ∧ (at' m.index ((h + j) % m.index.length)).hash ≠ h)
      (near : ∀ j < F, j ≤ D m.index ((h + j) % m.index.length))
      (fair : F < J → D m.index ((h + F) % m.index.length) < F) :
      RouteOk m key h (.avail ((h + J) % m.index.length) ((h + F) % m.index.length))
  | unavail
      (busy : ∀ j < maxProbes m.index.length,
        Occ m.index ((h + j) % m.index.length) ∧ (at' m.index ((h + j) % m.index.length)).hash ≠ h) :
      RouteOk m key h .unavail

theorem routeLoop_ok (m : Map K V) (key : K) (h : Nat)
    (hK : maxProbes m.index.length ≤ m.index.length)
    (hc : ∀ p < m.index.length, Occ m.index p → (at' m.index p).hash = h →
      ∃ r, chainFind m.data key m.data.length (at' m.index p).pos 0 = .ok r)
    (left probe : Nat) (fair : Option Nat)
    (hl : left + probe = maxProbes m.index.length)
    (busy : ∀ j < probe, Occ m.index ((h + j) % m.index.length) ∧ (at' m.index ((h + j) % m.index.length)).hash ≠ h)
    (hf : (fair = none ∧ ∀ j < probe, j ≤ D m.index ((h + j) % m.index.length)) ∨
      ∃ F < probe, fair = some ((h + F) % m.index.length) ∧ D m.index ((h + F) % m.index.length) < F ∧
        ∀ j < F, j ≤ D m.index ((h + j) % m.index.length)) :
    ∃ r, routeLoop m key h left probe fair = .ok r ∧ RouteOk m key h r := by
  induction left generalizing probe fair with
  | zero =>
    refine ⟨.unavail, rfl, .unavail ?_⟩
    intro j hj; exact busy j (by omega)
  | succ left ih =>
    have hL : 0 < m.index.length := by omega
    have hi : (h + probe) % m.index.length < m.index.length := Nat.mod_lt _ hL
    unfold routeLoop
    dsimp only
    rw [rd_at hi]
    simp only [bind, Except.bind]
    by_cases c : (at' m.index ((h + probe) % m.index.length)).pos = 0
    · rw [if_pos c]
      rcases hf with ⟨rfl, near⟩ | ⟨F, hF, rfl, d, near⟩
      · exact ⟨_, rfl, .free probe probe (by omega) (Nat.le_refl _) (fun o => o c) busy near (fun hlt => by omega)⟩
      · exact ⟨_, rfl, .free probe F (by omega) (by omega) (fun o => o c) busy near (fun _ => d)⟩
    · rw [if_neg c]
      by_cases c2 : (at' m.index ((h + probe) % m.index.length)).hash = h
      · rw [if_pos c2]
        obtain ⟨r, hr⟩ := hc _ hi c c2
        rw [hr]
        cases r with
        | none => exact ⟨_, rfl, .same probe (by omega) c c2 hr⟩
        | some pc =>
          obtain ⟨p, co⟩ := pc
          exact ⟨_, rfl, .found probe p co (by omega) c c2 hr⟩
      · rw [if_neg c2]
        apply ih _ _ (by omega)
        · intro j hj
          by_cases e : j = probe
          · subst e; exact ⟨c, c2⟩
          · exact busy j (by omega)
        · rcases hf with ⟨rfl, near⟩ | ⟨F, hF, rfl, d, near⟩
          · by_cases cd : dist m.index.length ((h + probe) % m.index.length)
                (at' m.index ((h + probe) % m.index.length)).hash < probe
            · right
              refine ⟨probe, by omega, ?_, cd, near⟩
              simp [fairUpd, cd]
            · left
              refine ⟨by simp [fairUpd, cd], ?_⟩
              intro j hj
              by_cases e : j = probe
              · subst e; unfold D; omega
              · exact near j (by omega)
          · right
            exact ⟨F, by omega, rfl, d, near⟩

theorem route_ok (m : Map K V) (key : K) (h : Nat)
    (hK : maxProbes m.index.length ≤ m.index.length)
    (hc : ∀ p < m.index.length, Occ m.index p → (at' m.index p).hash = h →
      ∃ r, chainFind m.data key m.data.length (at' m.index p).pos 0 = .ok r) :
    ∃ r, route m key h = .ok r ∧ RouteOk m key h r :=
  routeLoop_ok m key h hK hc _ 0 none (by omega) (fun _ hj => by omega)
    (Or.inl ⟨rfl, fun _ hj => by omega⟩)

end

/-- A hash that occurs in the index occurs within the probe limit, and no free slot comes first. -/
theorem RH.hit {idx : List IEnt} (h : RH idx) {p : Nat} (hp : p < idx.length) (op : Occ idx p) :
    ∃ J < maxProbes idx.length, ((at' idx p).hash + J) % idx.length = p ∧
      ∀ j ≤ J, Occ idx (((at' idx p).hash + j) % idx.length) := by
  refine ⟨D idx p, h.bound p hp op, slot_dist hp _, ?_⟩
  intro j hj
  exact (h.reach' hp op j hj).1

/-! ## Shifting entries up: `make_fair` -/

theorem fairLoop_ok (h : Nat) (idx : List IEnt) (J F n : Nat) (hJ : J < idx.length) (hF : F < J) (hn : J - F ≤ n) :
    ∃ idx', fairLoop n idx ((h + J) % idx.length) ((h + F) % idx.length) = .ok idx' ∧ idx'.length = idx.length ∧
      ∀ t < idx.length, at' idx' ((h + t) % idx.length) =
        if t = F then IEnt.free else if F < t ∧ t ≤ J then at' idx ((h + (t - 1)) % idx.length)
        else at' idx ((h + t) % idx.length) := by
  induction n generalizing idx J with
  | zero => omega
  | succ n ih =>
    have hL : 0 < idx.length := by omega
    unfold fairLoop
    dsimp only
    rw [prev_slot hL h J (by omega)]
    have hp : (h + (J - 1)) % idx.length < idx.length := Nat.mod_lt _ hL
    have hi : (h + J) % idx.length < idx.length := Nat.mod_lt _ hL
    rw [rd_at hp]
    simp only [bind, Except.bind]
    rw [wr_ok hi]
    simp only
    by_cases c : J - 1 = F
    · subst c
      rw [if_pos rfl, wr_ok (by simpa using hp)]
      refine ⟨_, rfl, by simp, ?_⟩
      intro t ht
      rw [at_set (by simpa using hp), at_set hi]
      by_cases t1 : t = J - 1
      · subst t1; simp
      · have n1 : (h + t) % idx.length ≠ (h + (J - 1)) % idx.length := fun e => t1 (slot_inj ht (by omega) e)
        rw [if_neg n1, if_neg t1]
        by_cases t2 : t = J
        · subst t2; rw [if_pos rfl, if_pos (by omega)]
        · have n2 : (h + t) % idx.length ≠ (h + J) % idx.length := fun e => t2 (slot_inj ht (by omega) e)
          rw [if_neg n2, if_neg (by omega)]
    · have n0 : (h + (J - 1)) % idx.length ≠ (h + F) % idx.length := fun e => c (slot_inj (by omega) (by omega) e)
      rw [if_neg n0]
      obtain ⟨idx', e, el, ea⟩ := ih (idx.set ((h + J) % idx.length) (at' idx ((h + (J - 1)) % idx.length))) (J - 1)
        (by simp only [List.length_set]; omega) (by omega) (by omega)
      simp only [List.length_set] at e el ea
      refine ⟨idx', e, el, ?_⟩
      intro t ht
      rw [ea t ht]
      by_cases t1 : t = F
      · rw [if_pos t1, if_pos t1]
      rw [if_neg t1, if_neg t1]
      by_cases t2 : F < t ∧ t ≤ J - 1
      · rw [if_pos t2, if_pos (by omega), at_set hi, if_neg]
        intro e'
        have := slot_inj (by omega) (by omega) e'
        omega
      · rw [if_neg t2, at_set hi]
        by_cases t3 : t = J
        · subst t3; rw [if_pos rfl, if_pos (by omega)]
        · rw [if_neg (fun e' => t3 (slot_inj ht (by omega) e')), if_neg (by omega)]

/-- The index after `make_fair` and the assignment of `e` to the freed slot. -/
theorem place_ok (h : Nat) (idx : List IEnt) (J F : Nat) (hJ : J < idx.length) (hF : F ≤ J) (e : IEnt)
    (nocc : ¬ Occ idx ((h + J) % idx.length)) :
    ∃ idx0 idx', makeFair idx ((h + J) % idx.length) ((h + F) % idx.length) = .ok idx0 ∧
      idx0.length = idx.length ∧ (at' idx0 ((h + F) % idx.length)).pos = 0 ∧
      wr idx0 ((h + F) % idx.length) e = .ok idx' ∧ idx'.length = idx.length ∧
      ∀ t < idx.length, at' idx' ((h + t) % idx.length) =
        if t = F then e else if F < t ∧ t ≤ J then at' idx ((h + (t - 1)) % idx.length)
        else at' idx ((h + t) % idx.length) := by
  have hL : 0 < idx.length := by omega
  have hf : (h + F) % idx.length < idx.length := Nat.mod_lt _ hL
  unfold makeFair
  by_cases c : F = J
  · subst c
    rw [if_pos rfl]
    refine ⟨idx, _, rfl, rfl, ?_, wr_ok hf e, by simp, ?_⟩
    · by_contra x; exact nocc x
    · intro t ht
      rw [at_set hf]
      by_cases t1 : t = F
      · subst t1; rw [if_pos rfl, if_pos rfl]
      · rw [if_neg (fun e' => t1 (slot_inj ht hJ e')), if_neg t1, if_neg (by omega)]
  · rw [if_neg (fun e' => c (slot_inj (by omega) (by omega) e'.symm))]
    obtain ⟨idx0, e0, el, ea⟩ := fairLoop_ok h idx J F idx.length hJ (by omega) (by omega)
    refine ⟨idx0, _, e0, el, ?_, wr_ok (by rw [el]; exact hf) e, by simp [el], ?_⟩
    · rw [ea F (by omega), if_pos rfl]; rfl
    · intro t ht
      rw [at_set (by rw [el]; exact hf), ea t ht]
      by_cases t1 : t = F
      · subst t1; rw [if_pos rfl, if_pos rfl]
      · rw [if_neg (fun e' => t1 (slot_inj ht (by omega) e')), if_neg t1, if_neg t1]

/-- Every slot is some number of probes away. -/
theorem slot_cover {L p : Nat} (hp : p < L) (h : Nat) : ∃ t < L, (h + t) % L = p :=
  ⟨dist L p h, dist_lt (by omega) p h, slot_dist hp h⟩

theorem pow_maxProbes_lt {L : Nat} (h : Pow L) (hL : 0 < L) : maxProbes L < L := by
  rcases h with rfl | ⟨k, _, rfl⟩
  · omega
  · rw [maxProbes_two_pow]; exact Nat.lt_two_pow_self

theorem pow_maxProbes_le {L : Nat} (h : Pow L) : maxProbes L ≤ L := by
  rcases Nat.eq_zero_or_pos L with rfl | hL
  · simp [maxProbes]
  · exact Nat.le_of_lt (pow_maxProbes_lt h hL)

/-- Robin-Hood insertion keeps the invariant. -/
theorem RH.place {h : Nat} {idx idx' : List IEnt} (rh : RH idx) (pw : Pow idx.length) (J F pos : Nat)
    (hpos : pos ≠ 0)
    (hJ : J < maxProbes idx.length) (hF : F ≤ J)
    (nocc : ¬ Occ idx ((h + J) % idx.length))
    (busy : ∀ j < J, Occ idx ((h + j) % idx.length))
    (near : ∀ j < F, j ≤ D idx ((h + j) % idx.length))
    (fair : F < J → D idx ((h + F) % idx.length) < F)
    (hl : idx'.length = idx.length)
    (ha : ∀ t < idx.length, at' idx' ((h + t) % idx.length) =
        if t = F then ⟨h, pos⟩ else if F < t ∧ t ≤ J then at' idx ((h + (t - 1)) % idx.length)
        else at' idx ((h + t) % idx.length)) : RH idx' := by
  have hKL : maxProbes idx.length ≤ idx.length := pow_maxProbes_le pw
  have hL : 0 < idx.length := by omega
  have hKL : maxProbes idx.length < idx.length := pow_maxProbes_lt pw hL
  -- distances of the entries that move
  have far : ∀ n, F + n < J → D idx ((h + (F + n)) % idx.length) < F + n := by
    intro n
    induction n with
    | zero => intro hlt; exact fair (by omega)
    | succ n ih =>
      intro hlt
      have hd := ih (by omega)
      by_cases z : D idx ((h + (F + (n + 1))) % idx.length) = 0
      · omega
      have e : (h + (F + (n + 1))) % idx.length = ((h + (F + n)) % idx.length + 1) % idx.length := by
        rw [Nat.mod_add_mod]; congr 1
      have := (rh.link _ (Nat.mod_lt _ hL) (e ▸ busy _ hlt) (e ▸ z)).2
      rw [← e] at this
      omega
  have far' : ∀ j, F ≤ j → j < J → D idx ((h + j) % idx.length) < j := by
    intro j h1 h2
    have := far (j - F) (by omega)
    rwa [show F + (j - F) = j by omega] at this
  -- distances in the new index
  have dnew : ∀ t < idx.length, D idx' ((h + t) % idx.length) =
      if t = F then F else if F < t ∧ t ≤ J then D idx ((h + (t - 1)) % idx.length) + 1
      else D idx ((h + t) % idx.length) := by
    intro t ht
    unfold D
    rw [hl, ha t ht]
    by_cases t1 : t = F
    · subst t1; rw [if_pos rfl, if_pos rfl]; exact dist_slot h t ht
    · rw [if_neg t1, if_neg t1]
      by_cases t2 : F < t ∧ t ≤ J
      · rw [if_pos t2, if_pos t2]
        have e : (h + t) % idx.length = ((h + (t - 1)) % idx.length + 1) % idx.length := by
          rw [Nat.mod_add_mod]; congr 1; omega
        rw [e, dist_next (Nat.mod_lt _ hL), if_neg]
        have := far' (t - 1) (by omega) (by omega)
        unfold D at this
        omega
      · rw [if_neg t2, if_neg t2]
  have onew : ∀ t < idx.length, t ≠ F → (Occ idx' ((h + t) % idx.length) ↔
      if F < t ∧ t ≤ J then Occ idx ((h + (t - 1)) % idx.length) else Occ idx ((h + t) % idx.length)) := by
    intro t ht t1
    unfold Occ
    rw [ha t ht, if_neg t1]
    split_ifs <;> rfl
  constructor
  · intro p hp op
    rw [hl] at hp ⊢
    obtain ⟨t, ht, rfl⟩ := slot_cover hp h
    rw [dnew t ht]
    by_cases t1 : t = F
    · rw [if_pos t1]; omega
    rw [if_neg t1]
    have o := (onew t ht t1).mp op
    by_cases t2 : F < t ∧ t ≤ J
    · rw [if_pos t2]
      have := far' (t - 1) (by omega) (by omega)
      omega
    · rw [if_neg t2] at o ⊢
      exact rh.bound _ hp o
  · intro p hp oq dq
    rw [hl] at hp oq dq ⊢
    obtain ⟨t, ht, rfl⟩ := slot_cover hp h
    by_cases last : t + 1 = idx.length
    · -- the next slot is the ideal slot of `h`
      have e : ((h + t) % idx.length + 1) % idx.length = (h + 0) % idx.length := by
        rw [Nat.mod_add_mod, Nat.add_assoc, last, Nat.add_mod_right, Nat.add_zero]
      have e1 := e
      rw [e] at oq dq ⊢
      rw [dnew 0 hL] at dq ⊢
      by_cases z : (0 : Nat) = F
      · rw [if_pos z] at dq; omega
      · rw [if_neg z, if_neg (by omega)] at dq ⊢
        have o0 := (onew 0 hL (by omega)).mp oq
        rw [if_neg (by omega)] at o0
        obtain ⟨o', d'⟩ := rh.link _ hp (e ▸ o0) (e ▸ dq)
        rw [e] at d'
        rw [dnew t ht, if_neg (by omega), if_neg (by omega), onew t ht (by omega), if_neg (by omega)]
        exact ⟨o', d'⟩
    · have e : ((h + t) % idx.length + 1) % idx.length = (h + (t + 1)) % idx.length := by
        rw [Nat.mod_add_mod, Nat.add_assoc]
      rw [e] at oq dq ⊢
      have ht' : t + 1 < idx.length := by omega
      rw [dnew _ ht'] at dq ⊢
      by_cases a1 : t + 1 = F
      · -- the new entry
        rw [if_pos a1]
        rw [dnew t ht, if_neg (by omega), if_neg (by omega), onew t ht (by omega), if_neg (by omega)]
        have := near t (by omega)
        exact ⟨busy t (by omega), by omega⟩
      rw [if_neg a1] at dq ⊢
      have oq' := (onew _ ht' a1).mp oq
      by_cases a2 : F < t + 1 ∧ t + 1 ≤ J
      · rw [if_pos a2] at dq ⊢ oq'
        rw [Nat.add_sub_cancel] at dq ⊢ oq'
        by_cases a3 : t = F
        · -- the first entry moved
          have hF' := fair (by omega)
          rw [dnew t ht, if_pos a3]
          refine ⟨?_, by rw [a3]; omega⟩
          unfold Occ
          rw [ha t ht, if_pos a3]
          exact hpos
        · rw [dnew t ht, if_neg a3, if_pos (by omega), onew t ht a3, if_pos (by omega)]
          have e' : (h + t) % idx.length = ((h + (t - 1)) % idx.length + 1) % idx.length := by
            rw [Nat.mod_add_mod]; congr 1; omega
          refine ⟨busy (t - 1) (by omega), ?_⟩
          by_cases z : D idx ((h + t) % idx.length) = 0
          · omega
          have := (rh.link _ (Nat.mod_lt _ hL) (e' ▸ oq') (e' ▸ z)).2
          rw [← e'] at this
          omega
      · rw [if_neg a2] at dq ⊢ oq'
        obtain ⟨o', d'⟩ := rh.link _ hp (e ▸ oq') (e ▸ dq)
        rw [e] at d'
        have tJ : t ≠ J := by
          intro e'; subst e'; exact nocc o'
        by_cases a3 : t = F
        · omega
        · rw [dnew t ht, if_neg a3, if_neg (by omega), onew t ht a3, if_neg (by omega)]
          exact ⟨o', d'⟩

end Verif.Hash
