import Verif.Scope
/-! # Scopes: one pass over the items -/
namespace Verif.Scope
open Verif

theorem vis_iff (skips : List ScopeSkip) (i : Nat) : visible skips i = true ↔ ∀ s ∈ skips, ¬ (s.start ≤ i ∧ (i : Int) < s.stop) := by
  unfold visible
  rw [List.all_eq_true]
  constructor
  · intro h s hs hh
    have := h s hs
    simp [hh.1, hh.2] at this
  · intro h s hs
    have := h s hs
    simp only [Bool.not_eq_true', Bool.and_eq_false_iff, decide_eq_false_iff_not]
    omega

/-- skips in order, disjoint, not empty, within the first `n` items -/
def WF (skips : List ScopeSkip) (n : Nat) : Prop :=
  skips.Pairwise (fun a b => a.stop ≤ b.start) ∧ ∀ s ∈ skips, 0 ≤ s.start ∧ s.start < s.stop ∧ s.stop ≤ n

theorem WF.mono {skips : List ScopeSkip} {n m : Nat} (h : WF skips n) (hm : n ≤ m) : WF skips m :=
  ⟨h.1, fun s hs => ⟨(h.2 s hs).1, (h.2 s hs).2.1, by have := (h.2 s hs).2.2; omega⟩⟩

theorem WF.nil (n : Nat) : WF [] n := ⟨List.Pairwise.nil, fun _ h => by cases h⟩

/-- the names found among the first `p` items, last first -/
def ans (items : List Item) (skips : List ScopeSkip) (id : Str) : Nat → List (BitVec 64 × Bool)
  | 0 => []
  | k + 1 =>
    match items[k]? with
    | none => ans items skips id k
    | some x => if visible skips k = true ∧ x.id = id then (target x, shadows x) :: ans items skips id k else ans items skips id k

theorem nextSkip_spec : ∀ (rev : List ScopeSkip), rev.Pairwise (fun a b => b.stop ≤ a.start) →
    (∀ s ∈ rev, 0 ≤ s.start ∧ s.start < s.stop) → ∀ (it trap : Int), -1 ≤ it →
    -1 ≤ (nextSkip rev it trap).1 ∧ (nextSkip rev it trap).1 ≤ it ∧
    (∀ i : Nat, (nextSkip rev it trap).1 < i → (i : Int) ≤ it → ¬ visible rev i = true) ∧
    (∀ i : Nat, (i : Int) = (nextSkip rev it trap).1 → visible rev i = true) ∧
    ((∃ s ∈ rev, s.stop - 1 = (nextSkip rev it trap).2 ∧ (nextSkip rev it trap).2 < (nextSkip rev it trap).1 ∧
        ∀ i : Nat, (nextSkip rev it trap).2 < i → (i : Int) ≤ (nextSkip rev it trap).1 → visible rev i = true) ∨
      ((nextSkip rev it trap).2 = trap ∧ ∀ i : Nat, (i : Int) ≤ (nextSkip rev it trap).1 → visible rev i = true)) := by
  intro rev
  induction rev with
  | nil =>
    intro _ _ it trap h
    refine ⟨h, Int.le_refl _, ?_, ?_, Or.inr ⟨rfl, ?_⟩⟩
    · intro i h1 h2
      simp only [nextSkip] at h1
      omega
    · intro i _; rfl
    · intro i _; rfl
  | cons ss rest ih =>
    intro hp hb it trap hit
    have hp' := List.pairwise_cons.1 hp
    have hb0 := hb ss (List.mem_cons_self ..)
    have hbr := fun s hs => hb s (List.mem_cons_of_mem _ hs)
    unfold nextSkip
    by_cases h : it > ss.stop - 1
    · rw [if_pos h]
      have hv : ∀ i : Nat, ss.stop - 1 < i → visible (ss :: rest) i = true := by
        intro i hi
        rw [vis_iff]
        intro s hs
        rcases List.mem_cons.1 hs with rfl | hs
        · omega
        · have := hp'.1 s hs
          omega
      refine ⟨by omega, Int.le_refl _, ?_, ?_, Or.inl ⟨ss, List.mem_cons_self .., rfl, by simpa using h, ?_⟩⟩
      · intro i h1 h2
        simp only at h1
        omega
      · intro i hi
        exact hv i (by simp only at hi; omega)
      · intro i hi _
        exact hv i (by simpa using hi)
    · rw [if_neg h]
      have h1 : -1 ≤ (if it > ss.start - 1 then ss.start - 1 else it) := by split <;> omega
      obtain ⟨a1, a2, a3, a4, a5⟩ := ih hp'.2 hbr (if it > ss.start - 1 then ss.start - 1 else it) trap h1
      generalize nextSkip rest (if it > ss.start - 1 then ss.start - 1 else it) trap = r at *
      have hle : (if it > ss.start - 1 then ss.start - 1 else it) < ss.start := by split <;> omega
      have hle2 : (if it > ss.start - 1 then ss.start - 1 else it) ≤ it := by split <;> omega
      have hsame : ∀ i : Nat, (i : Int) < ss.start → (visible (ss :: rest) i = true ↔ visible rest i = true) := by
        intro i hi
        rw [vis_iff, vis_iff]
        constructor
        · intro h2 s hs; exact h2 s (List.mem_cons_of_mem _ hs)
        · intro h2 s hs
          rcases List.mem_cons.1 hs with rfl | hs
          · omega
          · exact h2 s hs
      refine ⟨a1, by omega, ?_, ?_, ?_⟩
      · intro i h2 h3
        by_cases h4 : (i : Int) < ss.start
        · rw [hsame i h4]
          refine a3 i h2 ?_
          split <;> omega
        · rw [vis_iff]
          intro h5
          exact h5 ss (List.mem_cons_self ..) (by omega)
      · intro i hi
        exact (hsame i (by omega)).2 (a4 i hi)
      · rcases a5 with ⟨s, hs, e, hlt, hv⟩ | ⟨e, hv⟩
        · exact Or.inl ⟨s, List.mem_cons_of_mem _ hs, e, hlt, fun i h2 h3 => (hsame i (by omega)).2 (hv i h2 h3)⟩
        · exact Or.inr ⟨e, fun i h3 => (hsame i (by omega)).2 (hv i h3)⟩

/-- where the loop stands: everything between the trap and the iterator is visible -/
def Trap (skips : List ScopeSkip) (it trap : Int) : Prop :=
  (∃ s ∈ skips, s.stop - 1 = trap ∧ trap < it ∧ ∀ i : Nat, trap < i → (i : Int) < it → visible skips i = true) ∨
  ((trap < 0 ∨ it ≤ trap) ∧ ∀ i : Nat, (i : Int) < it → visible skips i = true)

theorem vis_reverse (skips : List ScopeSkip) (i : Nat) : visible skips.reverse i = visible skips i := by
  unfold visible; rw [List.all_reverse]

/-- moving past hidden items finds nothing -/
theorem ans_skip (items : List Item) (skips : List ScopeSkip) (id : Str) (q : Nat) : ∀ p : Nat, q ≤ p →
    (∀ i : Nat, q ≤ i → i < p → ¬ visible skips i = true) → ans items skips id p = ans items skips id q := by
  intro p
  induction p with
  | zero => intro h _; have : q = 0 := by omega
            rw [this]
  | succ p ih =>
    intro h hv
    by_cases hq : q = p + 1
    · rw [hq]
    · have h1 : ans items skips id (p + 1) = ans items skips id p := by
        rw [ans]
        have := hv p (by omega) (by omega)
        split
        · rfl
        · rw [if_neg (fun h => this h.1)]
      rw [h1]
      exact ih (by omega) fun i a b => hv i a (by omega)

theorem next_from {skips : List ScopeSkip} {n : Nat} (hw : WF skips n) (it trap : Int) (hit : -1 ≤ it)
    (ht : (trap < 0 ∨ (it ≤ trap ∧ trap < n ∧ ∀ i : Nat, (i : Int) = trap → ¬ visible skips i = true))) :
    let r := nextSkip skips.reverse it trap
    r.2 < n ∧ 0 ≤ r.1 + 1 ∧ r.1 ≤ it ∧ Trap skips (r.1 + 1) r.2 ∧
    (∀ i : Nat, r.1 < i → (i : Int) ≤ it → ¬ visible skips i = true) ∧ (∀ i : Nat, (i : Int) = r.1 → visible skips i = true) := by
  intro r
  have hp : skips.reverse.Pairwise (fun a b => b.stop ≤ a.start) := by
    rw [List.pairwise_reverse]; exact hw.1
  have hb : ∀ s ∈ skips.reverse, 0 ≤ s.start ∧ s.start < s.stop := fun s hs =>
    ⟨(hw.2 s (List.mem_reverse.1 hs)).1, (hw.2 s (List.mem_reverse.1 hs)).2.1⟩
  obtain ⟨a1, a2, a3, a4, a5⟩ := nextSkip_spec skips.reverse hp hb it trap hit
  simp only [vis_reverse] at a3 a4 a5
  refine ⟨?_, by show 0 ≤ (nextSkip skips.reverse it trap).1 + 1; omega, a2, ?_, a3, a4⟩
  · show (nextSkip skips.reverse it trap).2 < n
    rcases a5 with ⟨s, hs, e, _⟩ | ⟨e, _⟩
    · have := (hw.2 s (List.mem_reverse.1 hs)).2.2
      omega
    · rw [e]; rcases ht with h | h <;> omega
  · show Trap skips ((nextSkip skips.reverse it trap).1 + 1) (nextSkip skips.reverse it trap).2
    rcases a5 with ⟨s, hs, e, hlt, hv⟩ | ⟨e, hv⟩
    · exact Or.inl ⟨s, List.mem_reverse.1 hs, e, by omega, fun i h1 h2 => hv i h1 (by omega)⟩
    · refine Or.inr ⟨?_, fun i h => hv i (by omega)⟩
      rw [e]
      rcases ht with h | ⟨h1, h2, h3⟩
      · exact Or.inl h
      · by_cases h7 : trap < 0
        · exact Or.inl h7
        refine Or.inr ?_
        by_cases h4 : (nextSkip skips.reverse it trap).1 + 1 ≤ trap
        · exact h4
        · exfalso
          have h5 : (nextSkip skips.reverse it trap).1 = trap := by omega
          exact h3 trap.toNat (by omega) (a4 trap.toNat (by omega))

theorem get_nat {α : Type} (l : List α) (k : Nat) : get l (k : Int) = l[k]? := by
  unfold get
  rw [if_neg (by omega)]
  rfl

/-- **the loop** finds the last visible item of that name below the iterator, or that there is none -/
theorem scan_spec {items : List Item} {skips : List ScopeSkip} {n : Nat} (hw : WF skips n) (hn : n ≤ items.length) (id : Str) :
    ∀ (fuel : Nat) (it : Nat) (trap : Int), it ≤ items.length → it < fuel → Trap skips it trap →
      (scan items id skips.reverse fuel it trap = .done ∧ ans items skips id it = []) ∨
      ∃ k item, scan items id skips.reverse fuel it trap = .found k item ∧ k < it ∧ items[k]? = some item ∧ item.id = id ∧
        visible skips k = true ∧ ans items skips id it = (target item, shadows item) :: ans items skips id k := by
  intro fuel
  induction fuel with
  | zero => intro it trap _ h; omega
  | succ fuel ih =>
    intro it trap hlen hf ht
    unfold scan
    by_cases h0 : (it : Int) > 0
    · rw [if_pos h0]
      by_cases h1 : (it : Int) - 1 = trap
      · rw [if_pos h1]
        have hhid : ∃ s ∈ skips, s.stop - 1 = trap := by
          rcases ht with ⟨s, hs, e, _⟩ | ⟨h, _⟩
          · exact ⟨s, hs, e⟩
          · omega
        obtain ⟨s, hs, e⟩ := hhid
        have hsb := hw.2 s hs
        have hnv : ∀ i : Nat, (i : Int) = trap → ¬ visible skips i = true := by
          intro i hi
          rw [vis_iff]
          intro h
          exact h s hs (by omega)
        obtain ⟨b1, b2, b3, b4, b5, b6⟩ := next_from hw ((it : Int) - 1) trap (by omega) (Or.inr ⟨by omega, by omega, hnv⟩)
        generalize nextSkip skips.reverse ((it : Int) - 1) trap = r at *
        rw [if_neg (by omega)]
        have hlt : r.1 < (it : Int) - 1 := by
          by_cases h : r.1 = (it : Int) - 1
          · exfalso
            exact hnv (it - 1) (by omega) (b6 (it - 1) (by omega))
          · omega
        have hr : r.1 + 1 = ((r.1 + 1).toNat : Int) := by omega
        rw [hr]
        rw [hr] at b4
        have := ih (r.1 + 1).toNat r.2 (by omega) (by omega) b4
        have hskip : ans items skips id it = ans items skips id (r.1 + 1).toNat :=
          ans_skip items skips id _ it (by omega) fun i a b => b5 i (by omega) (by omega)
        rw [hskip]
        rcases this with h | ⟨k, item, c1, c2, c3⟩
        · exact Or.inl h
        · exact Or.inr ⟨k, item, c1, by omega, c3⟩
      · rw [if_neg h1]
        obtain ⟨k, rfl⟩ : ∃ k, it = k + 1 := ⟨it - 1, by omega⟩
        have hk : ((k + 1 : Nat) : Int) - 1 = (k : Int) := by omega
        rw [hk] at h1 ⊢
        rw [get_nat, List.getElem?_eq_getElem (by omega)]
        have hvis : visible skips k = true := by
          rcases ht with ⟨s, hs, e, hlt, hv⟩ | ⟨_, hv⟩
          · exact hv k (by omega) (by omega)
          · exact hv k (by omega)
        have hans : ans items skips id (k + 1) = if items[k].id = id then (target items[k], shadows items[k]) :: ans items skips id k else ans items skips id k := by
          rw [ans, List.getElem?_eq_getElem (by omega)]
          simp only [hvis, true_and]
        dsimp only
        rw [hans]
        by_cases hid : items[k].id = id
        · rw [if_pos hid, if_pos hid]
          exact Or.inr ⟨k, items[k], by simp, by omega, List.getElem?_eq_getElem (by omega), hid, hvis, rfl⟩
        · rw [if_neg hid, if_neg hid]
          have ht' : Trap skips k trap := by
            rcases ht with ⟨s, hs, e, hlt, hv⟩ | ⟨h, hv⟩
            · exact Or.inl ⟨s, hs, e, by omega, fun i a b => hv i a (by omega)⟩
            · exact Or.inr ⟨by omega, fun i a => hv i (by omega)⟩
          rcases ih k trap (by omega) (by omega) ht' with h | ⟨k', item, c1, c2, c3⟩
          · exact Or.inl h
          · exact Or.inr ⟨k', item, c1, by omega, c3⟩
    · rw [if_neg h0]
      have : it = 0 := by omega
      rw [this]
      exact Or.inl ⟨rfl, rfl⟩

end Verif.Scope
