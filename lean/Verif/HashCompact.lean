import Verif.HashIndex
/-!
# `compact`: backward shifting, and the measure that bounds every shifting loop of the index
-/
namespace Verif.Hash

/-- The distance counted for slot `p`: 0 when it is free. -/
def w (idx : List IEnt) (p : Nat) : Nat := if Occ idx p then D idx p else 0

/-- The sum of the probe distances of all entries. -/
def Phi (idx : List IEnt) : Nat := ∑ p ∈ Finset.range idx.length, w idx p

theorem w_lt {idx : List IEnt} {p : Nat} (hp : p < idx.length) : w idx p < idx.length := by
  unfold w
  split_ifs
  · exact dist_lt (by omega) _ _
  · omega

theorem Phi_le (idx : List IEnt) : Phi idx ≤ idx.length * idx.length := by
  unfold Phi
  have : ∑ p ∈ Finset.range idx.length, w idx p ≤ ∑ _p ∈ Finset.range idx.length, idx.length :=
    Finset.sum_le_sum (fun p hp => Nat.le_of_lt (w_lt (Finset.mem_range.mp hp)))
  simpa using this

/-- A change of two terms of a sum. -/
theorem sum_two {L a b : Nat} {g g' : Nat → Nat} (ha : a < L) (hb : b < L) (hab : a ≠ b)
    (same : ∀ p < L, p ≠ a → p ≠ b → g' p = g p) :
    ∑ p ∈ Finset.range L, g' p + (g a + g b) = ∑ p ∈ Finset.range L, g p + (g' a + g' b) := by
  have split : ∀ f : Nat → Nat, ∑ p ∈ Finset.range L, f p =
      f a + (f b + ∑ p ∈ ((Finset.range L).erase a).erase b, f p) := by
    intro f
    rw [← Finset.add_sum_erase (Finset.range L) f (Finset.mem_range.mpr ha),
      ← Finset.add_sum_erase ((Finset.range L).erase a) f
        (Finset.mem_erase.mpr ⟨fun e => hab e.symm, Finset.mem_range.mpr hb⟩)]
  have e : ∑ p ∈ ((Finset.range L).erase a).erase b, g' p = ∑ p ∈ ((Finset.range L).erase a).erase b, g p := by
    apply Finset.sum_congr rfl
    intro p hp
    simp only [Finset.mem_erase, Finset.mem_range] at hp
    exact same p hp.2.2 hp.2.1 hp.1
  rw [split g', split g, e]
  ring

theorem occ_swapped {idx : List IEnt} {i j : Nat} (hi : i < idx.length) (hj : j < idx.length) (p : Nat) :
    Occ (swapped idx i j) p ↔ if p = j then Occ idx i else if p = i then Occ idx j else Occ idx p := by
  unfold Occ
  rw [at_swapped hi hj]
  split_ifs <;> rfl

theorem D_swapped_other {idx : List IEnt} {i j : Nat} (hi : i < idx.length) (hj : j < idx.length) {p : Nat}
    (h1 : p ≠ i) (h2 : p ≠ j) : D (swapped idx i j) p = D idx p := by
  unfold D
  rw [at_swapped hi hj, if_neg h2, if_neg h1, swapped_length]

/-- The measure when two slots are swapped. -/
theorem Phi_swapped {idx : List IEnt} {i j : Nat} (hi : i < idx.length) (hj : j < idx.length) (hij : i ≠ j) :
    Phi (swapped idx i j) + (w idx i + w idx j) = Phi idx + (w (swapped idx i j) i + w (swapped idx i j) j) := by
  unfold Phi
  rw [swapped_length]
  apply sum_two hi hj hij
  intro p _ p1 p2
  have o : Occ (swapped idx i j) p ↔ Occ idx p := by rw [occ_swapped hi hj, if_neg p2, if_neg p1]
  unfold w
  rw [D_swapped_other hi hj p1 p2]
  simp only [o]

/-- An entry shifted back by one slot. -/
theorem D_shift {idx : List IEnt} {f : Nat} (hf : f < idx.length) (hd : D idx ((f + 1) % idx.length) ≠ 0) :
    dist idx.length f (at' idx ((f + 1) % idx.length)).hash + 1 = D idx ((f + 1) % idx.length) := by
  unfold D at *
  have e := dist_next hf (at' idx ((f + 1) % idx.length)).hash
  split_ifs at e with c
  · exact absurd e hd
  · exact e.symm

theorem Phi_shift {idx : List IEnt} {f : Nat} (hf : f < idx.length) (nf : ¬ Occ idx f)
    (oq : Occ idx ((f + 1) % idx.length)) (dq : D idx ((f + 1) % idx.length) ≠ 0) :
    Phi (swapped idx ((f + 1) % idx.length) f) + 1 = Phi idx := by
  have hq : (f + 1) % idx.length < idx.length := Nat.mod_lt _ (by omega)
  have hne : (f + 1) % idx.length ≠ f := by intro e; rw [e] at oq; exact nf oq
  have e := Phi_swapped hq hf hne
  have hs := D_shift hf dq
  have o1 : ¬ Occ (swapped idx ((f + 1) % idx.length) f) ((f + 1) % idx.length) := by
    rw [occ_swapped hq hf, if_neg hne, if_pos rfl]; exact nf
  have o2 : Occ (swapped idx ((f + 1) % idx.length) f) f := by
    rw [occ_swapped hq hf, if_pos rfl]; exact oq
  have d2 : D (swapped idx ((f + 1) % idx.length) f) f = dist idx.length f (at' idx ((f + 1) % idx.length)).hash := by
    unfold D
    rw [at_swapped hq hf, if_pos rfl, swapped_length]
  rw [show w idx ((f + 1) % idx.length) = D idx ((f + 1) % idx.length) from if_pos oq,
    show w idx f = 0 from if_neg nf, show w (swapped idx ((f + 1) % idx.length) f) ((f + 1) % idx.length) = 0 from if_neg o1,
    show w (swapped idx ((f + 1) % idx.length) f) f = _ from if_pos o2, d2] at e
  omega

/-- `compact` ends, moves entries without losing any, and never increases the measure. -/
theorem compact_total (n : Nat) (idx : List IEnt) (f : Nat) (hf : f < idx.length) (nf : ¬ Occ idx f)
    (hn : Phi idx < n) :
    ∃ idx', compact n idx f = .ok idx' ∧ idx'.Perm idx ∧ Phi idx' ≤ Phi idx := by
  induction n generalizing idx f with
  | zero => omega
  | succ n ih =>
    have hq : (f + 1) % idx.length < idx.length := Nat.mod_lt _ (by omega)
    unfold compact
    dsimp only
    rw [rd_at hq]
    simp only [bind, Except.bind]
    split_ifs with c
    · exact ⟨idx, rfl, List.Perm.refl _, Nat.le_refl _⟩
    · have dq : D idx ((f + 1) % idx.length) ≠ 0 := fun e => c (Or.inl e)
      have oq : Occ idx ((f + 1) % idx.length) := fun e => c (Or.inr e)
      rw [swap_ok hq hf]
      have hne : (f + 1) % idx.length ≠ f := by intro e; rw [e] at oq; exact nf oq
      have hP := Phi_shift hf nf oq dq
      change ∃ idx', compact n (swapped idx ((f + 1) % idx.length) f) ((f + 1) % idx.length) = _ ∧ _
      obtain ⟨idx', e, pm, le⟩ := ih (swapped idx ((f + 1) % idx.length) f) ((f + 1) % idx.length)
        (by rw [swapped_length]; exact hq)
        (by rw [occ_swapped hq hf, if_neg hne, if_pos rfl]; exact nf) (by omega)
      exact ⟨idx', e, pm.trans (swapped_perm hq hf), by omega⟩

/-- The rule for properties that every step of `compact` keeps. -/
theorem compact_rule (P : List IEnt → Nat → Prop)
    (hstep : ∀ idx f, f < idx.length → ¬ Occ idx f → Occ idx ((f + 1) % idx.length) →
      D idx ((f + 1) % idx.length) ≠ 0 → P idx f → P (swapped idx ((f + 1) % idx.length) f) ((f + 1) % idx.length))
    (n : Nat) (idx : List IEnt) (f : Nat) (idx' : List IEnt) (hf : f < idx.length) (nf : ¬ Occ idx f)
    (hP : P idx f) (e : compact n idx f = .ok idx') :
    ∃ f', P idx' f' ∧ idx'.length = idx.length ∧ f' < idx'.length ∧ ¬ Occ idx' f' ∧
      (D idx' ((f' + 1) % idx'.length) = 0 ∨ ¬ Occ idx' ((f' + 1) % idx'.length)) := by
  induction n generalizing idx f with
  | zero => simp [compact] at e
  | succ n ih =>
    have hq : (f + 1) % idx.length < idx.length := Nat.mod_lt _ (by omega)
    unfold compact at e
    dsimp only at e
    rw [rd_at hq] at e
    simp only [bind, Except.bind] at e
    split_ifs at e with c
    · cases e
      refine ⟨f, hP, rfl, hf, nf, ?_⟩
      rcases c with c | c
      · exact Or.inl c
      · exact Or.inr (fun o => o c)
    · have dq : D idx ((f + 1) % idx.length) ≠ 0 := fun e => c (Or.inl e)
      have oq : Occ idx ((f + 1) % idx.length) := fun e => c (Or.inr e)
      rw [swap_ok hq hf] at e
      have hne : (f + 1) % idx.length ≠ f := by intro e; rw [e] at oq; exact nf oq
      have := ih (swapped idx ((f + 1) % idx.length) f) ((f + 1) % idx.length)
        (by rw [swapped_length]; exact hq)
        (by rw [occ_swapped hq hf, if_neg hne, if_pos rfl]; exact nf)
        (hstep idx f hf nf oq dq hP) e
      rw [swapped_length] at this
      exact this

/-- The invariant with a hole at `f`: what holds of the index between two steps of `compact`. -/
structure Hole (idx : List IEnt) (f : Nat) : Prop where
  bound : ∀ p < idx.length, Occ idx p → D idx p < maxProbes idx.length
  link : ∀ p < idx.length, p ≠ f → Occ idx ((p + 1) % idx.length) → D idx ((p + 1) % idx.length) ≠ 0 →
    Occ idx p ∧ D idx ((p + 1) % idx.length) ≤ D idx p + 1
  two : Occ idx ((f + 1) % idx.length) → 2 ≤ D idx ((f + 1) % idx.length) →
    Occ idx ((f + idx.length - 1) % idx.length) ∧
      D idx ((f + 1) % idx.length) ≤ D idx ((f + idx.length - 1) % idx.length) + 2

theorem next_inj {L p q : Nat} (hp : p < L) (hq : q < L) (e : (p + 1) % L = (q + 1) % L) : p = q := by
  rw [← prev_next hp, ← prev_next hq, e]

theorem Hole.step {idx : List IEnt} {f : Nat} (hf : f < idx.length) (nf : ¬ Occ idx f)
    (oq : Occ idx ((f + 1) % idx.length)) (dq : D idx ((f + 1) % idx.length) ≠ 0) (H : Hole idx f) :
    Hole (swapped idx ((f + 1) % idx.length) f) ((f + 1) % idx.length) := by
  have hL : 0 < idx.length := by omega
  have hq : (f + 1) % idx.length < idx.length := Nat.mod_lt _ hL
  have hne : (f + 1) % idx.length ≠ f := by intro e; rw [e] at oq; exact nf oq
  have hs := D_shift hf dq
  have of : Occ (swapped idx ((f + 1) % idx.length) f) f := by
    rw [occ_swapped hq hf, if_pos rfl]; exact oq
  have onq : ¬ Occ (swapped idx ((f + 1) % idx.length) f) ((f + 1) % idx.length) := by
    rw [occ_swapped hq hf, if_neg hne, if_pos rfl]; exact nf
  have df : D (swapped idx ((f + 1) % idx.length) f) f + 1 = D idx ((f + 1) % idx.length) := by
    rw [← hs]
    unfold D
    rw [at_swapped hq hf, if_pos rfl, swapped_length]
  have oo : ∀ p, p ≠ f → p ≠ (f + 1) % idx.length → (Occ (swapped idx ((f + 1) % idx.length) f) p ↔ Occ idx p) := by
    intro p h1 h2
    rw [occ_swapped hq hf, if_neg h1, if_neg h2]
  have dd : ∀ p, p ≠ f → p ≠ (f + 1) % idx.length → D (swapped idx ((f + 1) % idx.length) f) p = D idx p :=
    fun p h1 h2 => D_swapped_other hq hf h2 h1
  constructor
  · intro p hp op
    rw [swapped_length] at hp ⊢
    by_cases p1 : p = f
    · subst p1
      have := H.bound _ hq oq
      omega
    · by_cases p2 : p = (f + 1) % idx.length
      · subst p2; exact absurd op onq
      · rw [dd p p1 p2]; exact H.bound p hp ((oo p p1 p2).mp op)
  · intro p hp pne on dn
    rw [swapped_length] at hp on dn ⊢
    by_cases n2 : (p + 1) % idx.length = (f + 1) % idx.length
    · rw [n2] at on; exact absurd on onq
    have p1 : p ≠ f := fun e => n2 (by rw [e])
    rw [oo p p1 pne, dd p p1 pne]
    by_cases n1 : (p + 1) % idx.length = f
    · have ep : (f + idx.length - 1) % idx.length = p := by rw [← n1, prev_next hp]
      rw [n1] at dn ⊢
      have := H.two oq (by omega)
      rw [ep] at this
      exact ⟨this.1, by omega⟩
    · rw [dd _ n1 n2] at dn ⊢
      exact H.link p hp p1 ((oo _ n1 n2).mp on) dn
  · intro on dn
    rw [swapped_length] at on dn ⊢
    rw [prev_next hf]
    refine ⟨of, ?_⟩
    have n2 : ((f + 1) % idx.length + 1) % idx.length ≠ (f + 1) % idx.length := by
      intro e; rw [e] at on; exact onq on
    by_cases n1 : ((f + 1) % idx.length + 1) % idx.length = f
    · rw [n1]; omega
    · rw [dd _ n1 n2] at dn ⊢
      have := (H.link _ hq hne ((oo _ n1 n2).mp on) (by omega)).2
      omega

/-- `compact` started on a hole restores the invariant. -/
theorem compact_rh (n : Nat) (idx : List IEnt) (f : Nat) (idx' : List IEnt) (hf : f < idx.length) (nf : ¬ Occ idx f)
    (H : Hole idx f) (e : compact n idx f = .ok idx') : RH idx' := by
  obtain ⟨f', H', -, hf', nf', stop⟩ := compact_rule Hole (fun idx f hf nf oq dq H => H.step hf nf oq dq) n idx f idx'
    hf nf H e
  refine ⟨H'.bound, ?_⟩
  intro p hp on dn
  by_cases c : p = f'
  · subst c
    rcases stop with s | s
    · exact absurd s dn
    · exact absurd on s
  · exact H'.link p hp c on dn

/-- Freeing a slot makes a hole. -/
theorem RH.hole {idx : List IEnt} (rh : RH idx) {f : Nat} (hf : f < idx.length) (of : Occ idx f) (e : IEnt)
    (he : e.pos = 0) : Hole (idx.set f e) f := by
  have hL : 0 < idx.length := by omega
  have oo : ∀ p, p ≠ f → (Occ (idx.set f e) p ↔ Occ idx p) := by
    intro p h; unfold Occ; rw [at_set hf, if_neg h]
  have dd : ∀ p, p ≠ f → D (idx.set f e) p = D idx p := by
    intro p h; unfold D; rw [at_set hf, if_neg h, List.length_set]
  have nf : ¬ Occ (idx.set f e) f := by unfold Occ; rw [at_set hf, if_pos rfl]; exact fun h => h he
  constructor
  · intro p hp op
    rw [List.length_set] at hp ⊢
    have p1 : p ≠ f := by rintro rfl; exact nf op
    rw [dd p p1]; exact rh.bound p hp ((oo p p1).mp op)
  · intro p hp p1 on dn
    rw [List.length_set] at hp on dn ⊢
    have n1 : (p + 1) % idx.length ≠ f := by intro e; rw [e] at on; exact nf on
    rw [dd _ n1] at dn ⊢
    rw [dd _ p1, oo p p1]
    exact rh.link p hp ((oo _ n1).mp on) dn
  · intro on dn
    rw [List.length_set] at on dn ⊢
    have n1 : (f + 1) % idx.length ≠ f := by intro e; rw [e] at on; exact nf on
    rw [dd _ n1] at dn ⊢
    obtain ⟨o1, d1⟩ := rh.link f hf ((oo _ n1).mp on) (by omega)
    have hp : (f + idx.length - 1) % idx.length < idx.length := Nat.mod_lt _ hL
    have en := next_prev hf
    by_cases z : (f + idx.length - 1) % idx.length = f
    · exfalso
      rw [z] at en; exact n1 en
    · rw [oo _ z, dd _ z]
      obtain ⟨o2, d2⟩ := rh.link _ hp (en.symm ▸ o1) (by rw [en]; omega)
      rw [en] at d2
      exact ⟨o2, by omega⟩

end Verif.Hash
