import Verif.HashCompact
/-!
# `increase_capacity` ends and loses no index entry
-/
namespace Verif.Hash

theorem findFree_ok (h : Nat) (idx : List IEnt) (d n t : Nat) (hd : d < idx.length) (ht : t < d) (hn : d - t ≤ n) :
    (∃ u, t ≤ u ∧ u < d ∧ findFree idx ((h + d) % idx.length) n ((h + t) % idx.length) =
        .ok (some ((h + u) % idx.length)) ∧ ¬ Occ idx ((h + u) % idx.length) ∧
        ∀ j, t ≤ j → j < u → Occ idx ((h + j) % idx.length)) ∨
    (findFree idx ((h + d) % idx.length) n ((h + t) % idx.length) = .ok none ∧
        ∀ j, t ≤ j → j < d → Occ idx ((h + j) % idx.length)) := by
  induction n generalizing t with
  | zero => omega
  | succ n ih =>
    have hL : 0 < idx.length := by omega
    have hs : (h + t) % idx.length < idx.length := Nat.mod_lt _ hL
    have en : ((h + t) % idx.length + 1) % idx.length = (h + (t + 1)) % idx.length := by
      rw [Nat.mod_add_mod, Nat.add_assoc]
    unfold findFree
    rw [rd_at hs]
    simp only [bind, Except.bind]
    rw [en]
    by_cases c : (at' idx ((h + t) % idx.length)).pos = 0
    · rw [if_pos c]
      exact Or.inl ⟨t, Nat.le_refl _, ht, rfl, fun o => o c, fun j h1 h2 => by omega⟩
    · rw [if_neg c]
      by_cases c2 : t + 1 = d
      · rw [c2, if_pos rfl]
        refine Or.inr ⟨rfl, ?_⟩
        intro j h1 h2
        have : j = t := by omega
        subst this; exact c
      · rw [if_neg (fun e => c2 (slot_inj (by omega) hd e))]
        rcases ih (t + 1) (by omega) (by omega) with ⟨u, h1, h2, h3, h4, h5⟩ | ⟨h3, h5⟩
        · refine Or.inl ⟨u, by omega, h2, h3, h4, ?_⟩
          intro j j1 j2
          by_cases e : j = t
          · subst e; exact c
          · exact h5 j (by omega) j2
        · refine Or.inr ⟨h3, ?_⟩
          intro j j1 j2
          by_cases e : j = t
          · subst e; exact c
          · exact h5 j (by omega) j2

/-- `swapBack` moves the free slot from probe `u` back to probe `v`; the entries between move up by one. -/
theorem swapBack_ok (h : Nat) (n : Nat) (idx : List IEnt) (u : Nat) (hu : u < idx.length) (hn : u < n)
    (nu : ¬ Occ idx ((h + u) % idx.length)) (busy : ∀ j < u, Occ idx ((h + j) % idx.length)) :
    ∃ idx' v, swapBack (h % idx.length) n idx ((h + u) % idx.length) = .ok (idx', (h + v) % idx.length) ∧
      v ≤ u ∧ idx'.length = idx.length ∧ idx'.Perm idx ∧ Phi idx' = Phi idx + (u - v) ∧
      ¬ Occ idx' ((h + v) % idx.length) ∧
      (∀ t < idx.length, t ≠ v → at' idx' ((h + t) % idx.length) =
        if v < t ∧ t ≤ u then at' idx ((h + (t - 1)) % idx.length) else at' idx ((h + t) % idx.length)) ∧
      (∀ t, v ≤ t → t < u → D idx ((h + t) % idx.length) + 1 < t + 1) ∧
      (v ≠ 0 → v ≤ D idx ((h + (v - 1)) % idx.length) + 1) := by
  induction n generalizing idx u with
  | zero => omega
  | succ n ih =>
    have hL : 0 < idx.length := by omega
    have hs : (h + u) % idx.length < idx.length := Nat.mod_lt _ hL
    unfold swapBack
    by_cases c : u = 0
    · subst c
      rw [if_pos (by rw [Nat.add_zero])]
      refine ⟨idx, 0, rfl, Nat.le_refl _, rfl, List.Perm.refl _, rfl, nu, ?_, ?_, ?_⟩
      · intro t _ t0; rw [if_neg (by omega)]
      · intro t _ _; omega
      · intro h0; exact absurd rfl h0
    · have nz : (h + u) % idx.length ≠ h % idx.length := by
        intro e; exact c (slot_inj (t := u) (u := 0) hu hL (by rw [e, Nat.add_zero]))
      rw [if_neg nz]
      dsimp only
      rw [prev_slot hL h u (by omega)]
      have hp : (h + (u - 1)) % idx.length < idx.length := Nat.mod_lt _ hL
      rw [rd_at hp]
      simp only [bind, Except.bind]
      rw [dist_mod, dist_slot h u hu]
      by_cases c2 : 1 + dist idx.length ((h + (u - 1)) % idx.length) (at' idx ((h + (u - 1)) % idx.length)).hash < u
      · rw [if_pos c2, swap_ok hs hp]
        change ∃ idx' v, swapBack (h % idx.length) n (swapped idx ((h + u) % idx.length) ((h + (u - 1)) % idx.length))
          ((h + (u - 1)) % idx.length) = _ ∧ _
        have hne : (h + u) % idx.length ≠ (h + (u - 1)) % idx.length := by
          intro e; have := slot_inj hu (by omega) e; omega
        have at1 := at_swapped hs hp
        have ol := swapped_length idx ((h + u) % idx.length) ((h + (u - 1)) % idx.length)
        generalize hX : swapped idx ((h + u) % idx.length) ((h + (u - 1)) % idx.length) = X at at1 ol ⊢
        have oX : ∀ p, Occ X p ↔ if p = (h + (u - 1)) % idx.length then Occ idx ((h + u) % idx.length)
            else if p = (h + u) % idx.length then Occ idx ((h + (u - 1)) % idx.length) else Occ idx p := by
          intro p; rw [← hX]; exact occ_swapped hs hp p
        have key := ih X (u - 1) (by omega) (by omega)
          (by rw [ol, oX, if_pos rfl]; exact nu)
          (by
            intro j hj
            rw [ol, oX, if_neg (fun e => by have := slot_inj (by omega) (by omega) e; omega),
              if_neg (fun e => by have := slot_inj (by omega) (by omega) e; omega)]
            exact busy j (by omega))
        rw [ol] at key
        obtain ⟨idx', v, e, hv, el, pm, ph, nv, ha, hd, hs'⟩ := key
        have atX : ∀ t, t < u - 1 → at' X ((h + t) % idx.length) = at' idx ((h + t) % idx.length) := by
          intro t ht
          rw [at1, if_neg (fun e => by have := slot_inj (by omega) (by omega) e; omega),
              if_neg (fun e => by have := slot_inj (by omega) (by omega) e; omega)]
        have dX : ∀ t, t < u - 1 → D X ((h + t) % idx.length) = D idx ((h + t) % idx.length) := by
          intro t ht; unfold D; rw [atX t ht, ol]
        refine ⟨idx', v, e, by omega, el, pm.trans (hX ▸ swapped_perm hs hp), ?_, nv, ?_, ?_, ?_⟩
        · -- the measure
          have eP := Phi_swapped hs hp hne
          rw [hX] at eP
          have o1 : ¬ Occ X ((h + (u - 1)) % idx.length) := by rw [oX, if_pos rfl]; exact nu
          have o2 : Occ X ((h + u) % idx.length) := by
            rw [oX, if_neg hne, if_pos rfl]; exact busy _ (by omega)
          have d2 : D X ((h + u) % idx.length) = D idx ((h + (u - 1)) % idx.length) + 1 := by
            unfold D
            rw [at1, if_neg hne, if_pos rfl, ol]
            have en : (h + u) % idx.length = ((h + (u - 1)) % idx.length + 1) % idx.length := by
              rw [Nat.mod_add_mod]; congr 1; omega
            rw [en, dist_next hp, if_neg]
            omega
          rw [show w idx ((h + u) % idx.length) = 0 from if_neg nu,
            show w idx ((h + (u - 1)) % idx.length) = D idx ((h + (u - 1)) % idx.length) from if_pos (busy _ (by omega)),
            show w X ((h + u) % idx.length) = _ from if_pos o2,
            show w X ((h + (u - 1)) % idx.length) = 0 from if_neg o1, d2] at eP
          omega
        · intro t ht tv
          rw [ha t ht tv]
          by_cases a : v < t ∧ t ≤ u - 1
          · rw [if_pos a, if_pos (by omega), atX _ (by omega)]
          · rw [if_neg a]
            by_cases b : t = u
            · subst b
              rw [if_pos (by omega), at1, if_neg hne, if_pos rfl]
            · rw [if_neg (by omega), at1, if_neg (fun e => by have := slot_inj (by omega) (by omega) e; omega),
                if_neg (fun e => by have := slot_inj (by omega) (by omega) e; omega)]
        · intro t t1 t2
          by_cases b : t = u - 1
          · subst b; unfold D; omega
          · have := hd t t1 (by omega)
            rwa [dX t (by omega)] at this
        · intro v0
          have := hs' v0
          rwa [dX _ (by omega)] at this
      · rw [if_neg c2]
        refine ⟨idx, u, rfl, Nat.le_refl _, rfl, List.Perm.refl _, by omega, nu, ?_, ?_, ?_⟩
        · intro t _ t0; rw [if_neg (by omega)]
        · intro t _ _; omega
        · intro _; unfold D; omega

/-- What a pass of the growth loop that moves an entry does before it compacts: the entry in slot `i` goes to probe `v`
of its own hash, `i` is freed. -/
theorem moveStep (idx : List IEnt) (i : Nat) (hi : i < idx.length) (oi : Occ idx i) (di : D idx i ≠ 0)
    (h : Nat) (hh : h = (at' idx i).hash) :
    (findFree idx i idx.length (h % idx.length) = .ok none ∧
      ∀ j < D idx i, Occ idx ((h + j) % idx.length)) ∨
    ∃ u v idx1 idx2, findFree idx i idx.length (h % idx.length) = .ok (some ((h + u) % idx.length)) ∧
      swapBack (h % idx.length) idx.length idx ((h + u) % idx.length) = .ok (idx1, (h + v) % idx.length) ∧
      swap idx1 i ((h + v) % idx.length) = .ok idx2 ∧
      v ≤ u ∧ u < D idx i ∧ idx2.length = idx.length ∧ idx2.Perm idx ∧ Phi idx2 < Phi idx ∧ ¬ Occ idx2 i ∧
      ¬ Occ idx ((h + u) % idx.length) ∧ (∀ j < u, Occ idx ((h + j) % idx.length)) ∧
      (∀ t < idx.length, t ≠ D idx i → at' idx2 ((h + t) % idx.length) =
        if t = v then at' idx i else if v < t ∧ t ≤ u then at' idx ((h + (t - 1)) % idx.length)
        else at' idx ((h + t) % idx.length)) ∧
      (∀ t, v ≤ t → t < u → D idx ((h + t) % idx.length) + 1 < t + 1) ∧
      (v ≠ 0 → v ≤ D idx ((h + (v - 1)) % idx.length) + 1) := by
  have hL : 0 < idx.length := by omega
  have hd : D idx i < idx.length := dist_lt hL _ _
  have es : (h + D idx i) % idx.length = i := by rw [hh]; exact slot_dist hi _
  have ff := findFree_ok h idx (D idx i) idx.length 0 hd (by omega) (by omega)
  rw [es, Nat.add_zero] at ff
  rcases ff with ⟨u, _, hu, e, nu, busy⟩ | ⟨e, busy⟩
  swap
  · exact Or.inl ⟨e, fun j hj => busy j (by omega) hj⟩
  right
  obtain ⟨idx1, v, e1, hv, el, pm, ph, nv, ha, hb, hc⟩ := swapBack_ok h idx.length idx u (by omega) (by omega) nu
    (fun j hj => busy j (by omega) hj)
  have hi1 : i < idx1.length := by rw [el]; exact hi
  have hv1 : (h + v) % idx.length < idx1.length := by rw [el]; exact Nat.mod_lt _ hL
  have ai : at' idx1 i = at' idx i := by
    have := ha (D idx i) hd (by omega)
    rwa [es, if_neg (by omega)] at this
  have hne : i ≠ (h + v) % idx.length := by
    intro e'; rw [← es] at e'
    have := slot_inj hd (by omega) e'
    omega
  have at2 := at_swapped hi1 hv1
  have eP := Phi_swapped hi1 hv1 hne
  have ol := swapped_length idx1 i ((h + v) % idx.length)
  have oX := occ_swapped hi1 hv1
  have pmX := swapped_perm hi1 hv1
  have eS := swap_ok hi1 hv1
  change swap idx1 i ((h + v) % idx.length) = .ok (swapped idx1 i ((h + v) % idx.length)) at eS
  generalize swapped idx1 i ((h + v) % idx.length) = X at at2 eP ol oX pmX eS
  have oi1 : Occ idx1 i := by unfold Occ; rw [ai]; exact oi
  have nXi : ¬ Occ X i := by rw [oX, if_neg hne, if_pos rfl]; exact nv
  refine ⟨u, v, idx1, X, e, e1, eS, hv, hu, by rw [ol, el], pmX.trans pm, ?_, nXi, nu, fun j hj => busy j (by omega) hj,
    ?_, hb, hc⟩
  · have oXv : Occ X ((h + v) % idx.length) := by rw [oX, if_pos rfl]; exact oi1
    have dXv : D X ((h + v) % idx.length) = v := by
      unfold D
      rw [at2, if_pos rfl, ai, ol, el, ← hh]
      exact dist_slot h v (by omega)
    have di1 : D idx1 i = D idx i := by unfold D; rw [ai, el]
    rw [show w idx1 i = D idx1 i from if_pos oi1, show w idx1 ((h + v) % idx.length) = 0 from if_neg nv,
      show w X i = 0 from if_neg nXi, show w X ((h + v) % idx.length) = _ from if_pos oXv, dXv, di1] at eP
    omega
  · intro t ht t1
    rw [at2]
    by_cases tv : t = v
    · subst tv; rw [if_pos rfl, if_pos rfl, ai]
    · rw [if_neg (fun e' => tv (slot_inj ht (by omega) e')), if_neg, if_neg tv, ha t ht tv]
      intro e'
      rw [← es] at e'
      exact t1 (slot_inj ht hd e')

/-- The condition under which a pass of the growth loop moves the entry in slot `i`. -/
def Moves (oldLen maxP : Nat) (idx : List IEnt) (i : Nat) : Prop :=
  (oldLen ≤ (at' idx i).hash % idx.length ∨ maxP ≤ D idx i) ∧ Occ idx i

theorem Moves.ne {oldLen maxP : Nat} {idx : List IEnt} {i : Nat} (h : Moves oldLen maxP idx i) (hi : i < idx.length)
    (ho : i < oldLen) (hm : 1 ≤ maxP) : D idx i ≠ 0 := by
  intro z
  have := (dist_zero_iff hi (at' idx i).hash).mp z
  rcases h.1 with h | h <;> omega

/-- One pass of the growth loop: nothing to do, nothing possible, or an entry moved and the gap compacted. -/
theorem growStep_cases (oldLen oldProbes maxP : Nat) (idx : List IEnt) (probe : Nat) (ho : 0 < oldLen)
    (hle : oldLen ≤ idx.length) (hm : 1 ≤ maxP) :
    let i := (probe + oldProbes) % oldLen
    let h := (at' idx i).hash
    (¬ Moves oldLen maxP idx i ∧ growStep oldLen oldProbes maxP idx probe = .ok (idx, false)) ∨
    (Moves oldLen maxP idx i ∧ (∀ j < D idx i, Occ idx ((h + j) % idx.length)) ∧
      growStep oldLen oldProbes maxP idx probe = .ok (idx, false)) ∨
    ∃ u v idx2 idx3, Moves oldLen maxP idx i ∧ growStep oldLen oldProbes maxP idx probe = .ok (idx3, true) ∧
      compact (idx.length * idx.length + 1) idx2 i = .ok idx3 ∧ idx3.Perm idx2 ∧ Phi idx3 ≤ Phi idx2 ∧
      v ≤ u ∧ u < D idx i ∧ idx2.length = idx.length ∧ idx2.Perm idx ∧ Phi idx2 < Phi idx ∧ ¬ Occ idx2 i ∧
      ¬ Occ idx ((h + u) % idx.length) ∧ (∀ j < u, Occ idx ((h + j) % idx.length)) ∧
      (∀ t < idx.length, t ≠ D idx i → at' idx2 ((h + t) % idx.length) =
        if t = v then at' idx i else if v < t ∧ t ≤ u then at' idx ((h + (t - 1)) % idx.length)
        else at' idx ((h + t) % idx.length)) ∧
      (∀ t, v ≤ t → t < u → D idx ((h + t) % idx.length) + 1 < t + 1) ∧
      (v ≠ 0 → v ≤ D idx ((h + (v - 1)) % idx.length) + 1) := by
  intro i h
  have hi' : i < oldLen := Nat.mod_lt _ ho
  have hi : i < idx.length := by omega
  unfold growStep
  dsimp only
  rw [rd_at hi]
  simp only [bind, Except.bind]
  by_cases c : Moves oldLen maxP idx i
  · right
    have c' : (oldLen ≤ (at' idx i).hash % idx.length ∨ maxP ≤ dist idx.length i (at' idx i).hash) ∧
        (at' idx i).pos ≠ 0 := c
    rw [if_pos c']
    rcases moveStep idx i hi c.2 (c.ne hi hi' hm) h rfl with ⟨e, busy⟩ | ⟨u, v, idx1, idx2, e, e1, e2, rest⟩
    · left
      change findFree idx i idx.length ((at' idx i).hash % idx.length) = _ at e
      rw [e]
      exact ⟨c, busy, rfl⟩
    · right
      change findFree idx i idx.length ((at' idx i).hash % idx.length) = _ at e
      change swapBack ((at' idx i).hash % idx.length) _ _ _ = _ at e1
      rw [e]
      simp only
      rw [e1]
      simp only
      rw [e2]
      simp only
      obtain ⟨r1, r2, r3, r4, r5, r6, r7⟩ := rest
      have hb := Phi_le idx2
      obtain ⟨idx3, e3, pm, le⟩ := compact_total (idx2.length * idx2.length + 1) idx2 i (by omega) r6 (by omega)
      rw [e3]
      rw [r3] at e3
      exact ⟨u, v, idx2, idx3, c, rfl, e3, pm, le, r1, r2, r3, r4, r5, r6, r7⟩
  · left
    have c' : ¬ ((oldLen ≤ (at' idx i).hash % idx.length ∨ maxP ≤ dist idx.length i (at' idx i).hash) ∧
        (at' idx i).pos ≠ 0) := c
    rw [if_neg c']
    exact ⟨c, rfl⟩

theorem growLoop_total (oldLen oldProbes maxP : Nat) (n : Nat) (idx : List IEnt) (probe : Nat) (ho : 0 < oldLen)
    (hle : oldLen ≤ idx.length) (hm : 1 ≤ maxP) (hn : (oldLen - probe) + Phi idx < n) :
    ∃ idx', growLoop oldLen oldProbes maxP n idx probe = .ok idx' ∧ idx'.Perm idx := by
  induction n generalizing idx probe with
  | zero => omega
  | succ n ih =>
    unfold growLoop
    by_cases c : probe < oldLen
    · rw [if_pos c]
      have := growStep_cases oldLen oldProbes maxP idx probe ho hle hm
      dsimp only at this
      rcases this with ⟨_, e⟩ | ⟨_, _, e⟩ | ⟨u, v, idx2, idx3, _, e, _, pm3, le3, _, _, l2, pm2, lt2, _⟩
      · rw [e]
        simp only [bind, Except.bind]
        exact ih idx (probe + 1) hle (by omega)
      · rw [e]
        simp only [bind, Except.bind]
        exact ih idx (probe + 1) hle (by omega)
      · rw [e]
        simp only [bind, Except.bind, if_true]
        have pm := pm3.trans pm2
        obtain ⟨idx', e', pm'⟩ := ih idx3 probe (by rw [pm.length_eq]; exact hle) (by omega)
        exact ⟨idx', e', pm'.trans pm⟩
    · rw [if_neg c]
      exact ⟨idx, rfl, List.Perm.refl _⟩

/-- The index with the new, free slots appended. -/
def widened (idx : List IEnt) : List IEnt := idx ++ List.replicate (grownLen idx.length - idx.length) IEnt.free

theorem grownLen_pow {L : Nat} (h : Pow L) : Pow (grownLen L) ∧ 0 < grownLen L ∧ L < grownLen L := by
  unfold grownLen
  rcases h with rfl | ⟨k, hk, rfl⟩
  · exact ⟨Or.inr ⟨1, by omega, rfl⟩, by omega, by omega⟩
  · have : 2 ≤ 2 ^ k := by
      calc 2 = 2 ^ 1 := rfl
        _ ≤ 2 ^ k := Nat.pow_le_pow_right (by omega) hk
    refine ⟨Or.inr ⟨k + 1, by omega, ?_⟩, by omega, by omega⟩
    rw [Nat.pow_succ]; omega

theorem one_le_maxProbes {L : Nat} (h : Pow L) (hL : 0 < L) : 1 ≤ maxProbes L := by
  rcases h with rfl | ⟨k, hk, rfl⟩
  · omega
  · rw [maxProbes_two_pow]; exact hk

/-- Growing the index ends, for every content of the index, and keeps every entry. -/
theorem increaseCapacity_total (idx : List IEnt) (pw : Pow idx.length) :
    ∃ idx', increaseCapacity idx = .ok idx' ∧ idx'.Perm (widened idx) := by
  obtain ⟨pw', pos', lt'⟩ := grownLen_pow pw
  have hl : (widened idx).length = grownLen idx.length := by
    unfold widened; rw [List.length_append, List.length_replicate]; omega
  unfold increaseCapacity
  dsimp only
  change ∃ idx', growLoop _ _ _ _ (widened idx) 0 = _ ∧ _
  have hb := Phi_le (widened idx)
  rw [hl] at hb
  rcases Nat.eq_zero_or_pos idx.length with z | pos
  · rw [z]
    unfold growLoop
    rw [if_neg (by omega)]
    exact ⟨_, rfl, List.Perm.refl _⟩
  · exact growLoop_total _ _ _ _ _ _ pos (by omega) (one_le_maxProbes pw' pos') (by omega)

theorem widened_length {idx : List IEnt} (pw : Pow idx.length) : (widened idx).length = grownLen idx.length := by
  obtain ⟨_, _, lt'⟩ := grownLen_pow pw
  unfold widened; rw [List.length_append, List.length_replicate]; omega

end Verif.Hash
