import Verif.HashRemove
/-!
# Closing the gap in the data array
-/
namespace Verif.Hash
variable {K V : Type} [DecidableEq K]

omit [DecidableEq K] in
theorem relinkWalk_ok (last pos n : Nat) (d : List (DEnt K V)) (a x : Nat) (L : List Nat) (s : Seg d a (x :: L) last)
    (hn : (x :: L).length ≤ n) (nl : last ∉ x :: L) :
    ∃ P c ec, x :: L = P ++ [c] ∧ d[c - 1]? = some ec ∧
      relinkWalk last pos n d a = .ok (d.set (c - 1) { ec with coll := pos }) := by
  induction n generalizing a x L with
  | zero => simp at hn
  | succ n ih =>
    obtain ⟨rfl, h0, c, hc, s⟩ := s
    unfold cl at hc
    obtain ⟨e, he, rfl⟩ := Option.map_eq_some_iff.mp hc
    unfold relinkWalk
    rw [dat_ok h0 he]
    simp only [bind, Except.bind]
    cases L with
    | nil =>
      have hz : e.coll = last := s
      rw [if_pos hz, datSet_ok h0 (List.getElem?_eq_some_iff.mp he).1]
      exact ⟨[], a, e, rfl, he, rfl⟩
    | cons y L =>
      have hy : e.coll = y := s.1
      have hne : e.coll ≠ last := by
        rw [hy]; rintro rfl; exact nl (by simp)
      rw [if_neg hne]
      obtain ⟨P, c, ec, eL, hec, ew⟩ := ih e.coll y L s (by simpa using hn) (fun h => nl (List.mem_cons_of_mem _ h))
      exact ⟨a :: P, c, ec, by rw [eL]; rfl, hec, ew⟩

omit [DecidableEq K] in
theorem relink_ok (m : Map K V) (hash last pos J left probe : Nat) (hl : left + probe = maxProbes m.index.length)
    (hJ : J < maxProbes m.index.length) (hL : 0 < m.index.length) (hp : probe ≤ J)
    (occ : Occ m.index ((hash + J) % m.index.length)) (eq : (at' m.index ((hash + J) % m.index.length)).hash = hash)
    (no : ∀ j < J, ¬ (Occ m.index ((hash + j) % m.index.length) ∧
      (at' m.index ((hash + j) % m.index.length)).hash = hash)) :
    ((at' m.index ((hash + J) % m.index.length)).pos = last →
      relink m hash last pos left probe =
        .ok ⟨m.index.set ((hash + J) % m.index.length) ⟨hash, pos⟩, m.data⟩) ∧
    ((at' m.index ((hash + J) % m.index.length)).pos ≠ last →
      ∀ d', relinkWalk last pos m.data.length m.data (at' m.index ((hash + J) % m.index.length)).pos = .ok d' →
      relink m hash last pos left probe = .ok ⟨m.index, d'⟩) := by
  induction left generalizing probe with
  | zero => omega
  | succ left ih =>
    have hi : (hash + probe) % m.index.length < m.index.length := Nat.mod_lt _ hL
    unfold relink
    dsimp only
    rw [rd_at hi]
    simp only [bind, Except.bind]
    by_cases c : probe = J
    · subst c
      rw [if_neg (by rw [eq]; exact fun h => h.elim (fun h => h rfl) occ)]
      constructor
      · intro h
        rw [if_pos h, wr_ok hi]
        simp only
        rw [eq]
      · intro h d' ed
        rw [if_neg h, ed]
    · have := no probe (by omega)
      rw [if_pos]
      · exact ih (probe + 1) (by omega) (by omega)
      · by_contra x
        apply this
        constructor
        · exact fun h => x (Or.inr h)
        · by_contra h; exact x (Or.inl h)

omit [DecidableEq K] in
theorem cl_dropLast {d : List (DEnt K V)} {y : Nat} (h : y - 1 < d.length - 1) : cl d.dropLast y = cl d y := by
  unfold cl
  rw [List.dropLast_eq_take, List.getElem?_take_of_lt h]

omit [DecidableEq K] in
/-- Filling the gap at position `x` with the last entry. -/
theorem fillGap_ok {idx : List IEnt} {d : List (DEnt K V)} {x : Nat} {ch : Nat → List Nat} (pw : Pow idx.length)
    (rh : RH idx) (uq : Uniq idx) (l : Linked idx d x ch) (hx : x ≠ 0) (hx' : x ≤ d.length) {eL : DEnt K V}
    (hL : d[d.length - 1]? = some eL) :
    ∃ m2, fillGap ⟨idx, d⟩ x = .ok m2 ∧ Pow m2.index.length ∧ RH m2.index ∧ Uniq m2.index ∧
      m2.data.map core = ((d.map core).set (x - 1) (core eL)).dropLast ∧
      ∃ ch2, Linked m2.index m2.data 0 ch2 := by
  unfold fillGap
  dsimp only
  by_cases c : d.length = x
  · -- the gap is at the end
    rw [if_neg (by simpa using c)]
    refine ⟨_, rfl, pw, rh, uq, ?_, ch, l.nodup, ?_, ?_, l.slot⟩
    · show d.dropLast.map core = _
      rw [List.map_dropLast]
      apply List.ext_getElem?
      intro n
      simp only [List.dropLast_eq_take, List.length_set, List.length_map]
      rw [List.getElem?_take, List.getElem?_take]
      split_ifs with h1
      · rw [List.getElem?_set_ne (by omega)]
      · rfl
    · intro h y
      show _ ↔ y ≠ 0 ∧ PosOf d.dropLast h y
      rw [l.mem]
      unfold PosOf
      constructor
      · rintro ⟨h1, h2, e, he, hh⟩
        have := (List.getElem?_eq_some_iff.mp he).1
        exact ⟨h2, h2, e, by rw [List.dropLast_eq_take, List.getElem?_take_of_lt (by omega)]; exact he, hh⟩
      · rintro ⟨_, h2, e, he, hh⟩
        have := (List.getElem?_eq_some_iff.mp he).1
        rw [List.length_dropLast] at this
        rw [List.dropLast_eq_take, List.getElem?_take_of_lt (by omega)] at he
        exact ⟨by omega, h2, e, he, hh⟩
    · intro p hp op
      refine seg_congr ?_ (l.head p hp op)
      intro y hy
      have h1 := (l.mem _ _).mp hy
      have := h1.2.le
      exact cl_dropLast (by omega)
  · rw [if_pos (by simpa using c)]
    have hlt : x < d.length := by omega
    obtain ⟨ex, hex⟩ : ∃ ex, d[x - 1]? = some ex := ⟨_, List.getElem?_eq_getElem (by omega)⟩
    rw [swap_ok' hex hL]
    simp only [bind, Except.bind]
    -- the data array with the two entries swapped
    have g2 : ∀ n : Nat, ((d.set (x - 1) eL).set (d.length - 1) ex)[n]? =
        if n = d.length - 1 then some ex else if n = x - 1 then some eL else d[n]? := by
      intro n
      rw [List.getElem?_set, List.getElem?_set]
      by_cases h1 : n = d.length - 1
      · subst h1; rw [if_pos rfl, if_pos rfl, if_pos (by rw [List.length_set]; omega)]
      · rw [if_neg (by omega), if_neg h1]
        by_cases h2 : n = x - 1
        · subst h2; rw [if_pos rfl, if_pos rfl, if_pos (by omega)]
        · rw [if_neg (by omega), if_neg h2]
    have len2 : ((d.set (x - 1) eL).set (d.length - 1) ex).length = d.length := by simp
    have co2 : ((d.set (x - 1) eL).set (d.length - 1) ex).map core =
        ((d.map core).set (x - 1) (core eL)).set (d.length - 1) (core ex) := by
      rw [List.map_set, List.map_set]
    generalize (d.set (x - 1) eL).set (d.length - 1) ex = d2 at g2 len2 co2
    have hx2 : d2[x - 1]? = some eL := by rw [g2, if_neg (by omega), if_pos rfl]
    rw [dat_ok hx hx2]
    simp only
    have cl2x : cl d2 x = cl d d.length := by unfold cl; rw [hx2, hL]
    have cl2 : ∀ y, y ≠ 0 → y ≠ x → y ≠ d.length → cl d2 y = cl d y := by
      intro y h0 h1 h2
      unfold cl
      rw [g2, if_neg (by omega), if_neg (by omega)]
    -- the bucket of the last entry
    have hmem : d.length ∈ ch eL.hash := (l.mem _ _).mpr ⟨c, by omega, eL, hL, rfl⟩
    have only : ∀ h, d.length ∈ ch h → h = eL.hash := by
      intro h hm
      obtain ⟨_, _, e, he, hh⟩ := (l.mem _ _).mp hm
      rw [hL] at he
      cases he
      exact hh.symm
    have nox : ∀ h, x ∉ ch h := fun h hm => ((l.mem _ _).mp hm).1 rfl
    have no0 : ∀ h, ∀ y ∈ ch h, y ≠ 0 := fun h y hm => ((l.mem _ _).mp hm).2.1
    obtain ⟨P, Q, ePQ⟩ := List.append_of_mem hmem
    have nd := l.nodup eL.hash
    rw [ePQ] at nd
    have ndP : d.length ∉ P ∧ d.length ∉ Q := by
      have := List.nodup_append.mp nd
      refine ⟨fun h => this.2.2 _ h _ (by simp) rfl, (List.nodup_cons.mp this.2.1).1⟩
    obtain ⟨p, hp, op, ep⟩ := l.slot eL.hash (List.ne_nil_of_mem hmem)
    obtain ⟨J, hJ, es, occ⟩ := rh.hit hp op
    rw [ep] at es occ
    have uq' := (uniq_iff _).mp uq
    have hLpos : 0 < idx.length := by omega
    have noJ : ∀ j < J, ¬ (Occ idx ((eL.hash + j) % idx.length) ∧ (at' idx ((eL.hash + j) % idx.length)).hash = eL.hash) := by
      rintro j hj ⟨h1, h2⟩
      have := uq' _ (Nat.mod_lt _ hLpos) p hp h1 op (by rw [h2, ep])
      rw [← es] at this
      have h3 := pow_maxProbes_le pw
      have := slot_inj (by omega) (by omega) this
      omega
    have R := relink_ok ⟨idx, d2⟩ eL.hash d.length x J (maxProbes idx.length) 0 (Nat.add_zero _) hJ hLpos (by omega)
      (by show Occ idx _; rw [es]; exact op) (by show (at' idx _).hash = _; rw [es]; exact ep) noJ
    simp only at R
    rw [es] at R
    have hseg := l.head p hp op
    rw [ep, ePQ, seg_append] at hseg
    obtain ⟨a, s1, ea, hd0, cq, hcq, s2⟩ := hseg
    subst ea
    -- the new positions
    have chNew : ∀ h, (if h = eL.hash then P ++ x :: Q else ch h).Nodup := by
      intro h
      split_ifs with ch'
      · have h1 := List.nodup_append.mp nd
        have h2 := List.nodup_cons.mp h1.2.1
        have xP : x ∉ P := fun hm => nox eL.hash (by rw [ePQ]; simp [hm])
        have xQ : x ∉ Q := fun hm => nox eL.hash (by rw [ePQ]; simp [hm])
        refine List.nodup_append.mpr ⟨h1.1, List.nodup_cons.mpr ⟨xQ, h2.2⟩, ?_⟩
        intro y hy z hz
        rcases List.mem_cons.mp hz with rfl | hz
        · rintro rfl; exact xP hy
        · exact h1.2.2 y hy z (by simp [hz])
      · exact l.nodup h
    -- positions of hashes in the final array
    have posNew : ∀ (d4 : List (DEnt K V)), d4.map core = ((d.map core).set (x - 1) (core eL)).dropLast →
        ∀ h y, PosOf d4 h y ↔ (y ≠ 0 ∧ y < d.length ∧ ((y = x ∧ h = eL.hash) ∨ (y ≠ x ∧ PosOf d h y))) := by
      intro d4 h4 h y
      have key : ∀ dd : List (DEnt K V), (∃ e, dd[y - 1]? = some e ∧ e.hash = h) ↔
          ((dd.map core)[y - 1]?).map (fun c => c.2.2) = some h := by
        intro dd
        rw [List.getElem?_map, Option.map_map, Option.map_eq_some_iff]
        rfl
      unfold PosOf
      rw [key, h4, List.dropLast_eq_take, List.getElem?_take]
      simp only [List.length_set, List.length_map]
      by_cases h0 : y = 0
      · constructor
        · rintro ⟨h1, _⟩; exact absurd h0 h1
        · rintro ⟨h1, _⟩; exact absurd h0 h1
      by_cases hy : y - 1 < d.length - 1
      · rw [if_pos hy, List.getElem?_set]
        by_cases hyx : y = x
        · subst hyx
          rw [if_pos rfl, if_pos (by simpa using (by omega : y - 1 < d.length))]
          constructor
          · rintro ⟨_, h2⟩
            refine ⟨h0, by omega, Or.inl ⟨rfl, ?_⟩⟩
            simpa [core] using h2.symm
          · rintro ⟨_, _, ⟨_, h2⟩ | ⟨h2, _⟩⟩
            · refine ⟨h0, ?_⟩
              rw [h2]; rfl
            · exact absurd rfl h2
        · rw [if_neg (by omega), key]
          constructor
          · rintro ⟨_, h2⟩
            exact ⟨h0, by omega, Or.inr ⟨hyx, h0, h2⟩⟩
          · rintro ⟨_, _, ⟨h2, _⟩ | ⟨_, _, h2⟩⟩
            · exact absurd h2 hyx
            · exact ⟨h0, h2⟩
      · rw [if_neg hy]
        constructor
        · rintro ⟨_, h2⟩; cases h2
        · rintro ⟨_, h2, _⟩
          exact absurd (by clear * - h2 h0; omega) hy
    have memNew : ∀ (d4 : List (DEnt K V)), d4.map core = ((d.map core).set (x - 1) (core eL)).dropLast →
        ∀ h y, y ∈ (if h = eL.hash then P ++ x :: Q else ch h) ↔ y ≠ 0 ∧ PosOf d4 h y := by
      intro d4 h4 h y
      rw [posNew d4 h4]
      have base : ∀ h y, y ∈ ch h ↔ y ≠ x ∧ PosOf d h y := l.mem
      split_ifs with hh
      · subst hh
        have := base eL.hash y
        rw [ePQ] at this
        simp only [List.mem_append, List.mem_cons] at this ⊢
        constructor
        · intro hm
          have hm' : y = x ∨ (y ≠ d.length ∧ (y ∈ P ∨ y = d.length ∨ y ∈ Q)) := by
            rcases hm with h1 | h1 | h1
            · exact Or.inr ⟨by rintro rfl; exact ndP.1 h1, Or.inl h1⟩
            · exact Or.inl h1
            · exact Or.inr ⟨by rintro rfl; exact ndP.2 h1, Or.inr (Or.inr h1)⟩
          rcases hm' with rfl | ⟨h1, h2⟩
          · exact ⟨hx, hx, hlt, Or.inl ⟨rfl, trivial⟩⟩
          · have h3 := this.mp h2
            have := h3.2.le
            exact ⟨h3.2.1, h3.2.1, by omega, Or.inr h3⟩
        · rintro ⟨h0, _, h1, ⟨rfl, _⟩ | h2⟩
          · exact Or.inr (Or.inl rfl)
          · rcases this.mpr h2 with h3 | h3 | h3
            · exact Or.inl h3
            · omega
            · exact Or.inr (Or.inr h3)
      · rw [base]
        constructor
        · rintro ⟨h1, h2⟩
          have := h2.le
          refine ⟨h2.1, h2.1, ?_, Or.inr ⟨h1, h2⟩⟩
          by_contra hge
          have : y = d.length := by omega
          subst this
          exact hh (only h ((base h _).mpr ⟨h1, h2⟩))
        · rintro ⟨h0, _, h1, ⟨_, h2⟩ | h2⟩
          · exact absurd h2 hh
          · exact h2
    have le : ∀ h, ∀ y ∈ ch h, y ≤ d.length := fun h y hm => ((l.mem _ _).mp hm).2.le.2
    -- buckets that do not hold the last entry
    have other : ∀ (d4 : List (DEnt K V)), (∀ y, y ≠ 0 → y ≠ x → y < d.length → y ∉ ch eL.hash → cl d4 y = cl d y) →
        ∀ h a, h ≠ eL.hash → Seg d a (ch h) 0 → Seg d4 a (ch h) 0 := by
      intro d4 h4 h a hh s
      refine seg_congr ?_ s
      intro y hy
      have hym := (l.mem _ _).mp hy
      have := hym.2.le
      refine h4 y hym.2.1 hym.1 ?_ ?_
      · by_contra hge
        have : y = d.length := by omega
        subst this
        exact hh (only h hy)
      · intro hm
        obtain ⟨_, _, e1, h1, h2⟩ := hym
        obtain ⟨_, _, e2, h3, h5⟩ := (l.mem _ _).mp hm
        rw [h1] at h3
        cases h3
        exact hh (by rw [← h2, h5])
    -- the tail of the bucket
    have segQ : ∀ (d4 : List (DEnt K V)), (∀ y ∈ Q, cl d4 y = cl d y) → cl d4 x = cl d d.length →
        Seg d4 x (x :: Q) 0 := by
      intro d4 h4 h5
      exact ⟨rfl, hx, cq, by rw [h5, hcq], seg_congr h4 s2⟩
    have drop : ∀ (dd : List (DEnt K V)), dd.length = d.length → ∀ y, y ≠ 0 → y < d.length → cl dd.dropLast y = cl dd y := by
      intro dd hdd y h0 h1
      exact cl_dropLast (by omega)
    rcases List.eq_nil_or_concat P with rfl | ⟨P', c', rfl⟩
    · -- the last entry heads its bucket
      have hpos : (at' idx p).pos = d.length := s1
      rw [R.1 hpos]
      have ha := at_set hp (⟨eL.hash, x⟩)
      have co4 : d2.dropLast.map core = ((d.map core).set (x - 1) (core eL)).dropLast := by
        rw [List.map_dropLast, co2]
        simp only [List.dropLast_eq_take, List.length_set, List.length_map]
        rw [List.take_set_of_le (by omega)]
      refine ⟨_, rfl, by simpa using pw, ?_, ?_, co4, _, chNew, memNew _ co4, ?_, ?_⟩
      · refine rh.congr (by simp) ?_
        intro q _
        unfold Occ
        rw [ha]
        split_ifs with c1
        · subst c1; exact ⟨ep.symm, ⟨fun _ => op, fun _ => hx⟩⟩
        · exact ⟨rfl, Iff.rfl⟩
      · refine uniq_congr uq (by simp) ?_
        intro q _ oq
        unfold Occ at oq ⊢
        rw [ha] at oq ⊢
        split_ifs with c1
        · subst c1; exact ⟨ep.symm, op⟩
        · rw [if_neg c1] at oq; exact ⟨rfl, oq⟩
      · intro q hq oq
        simp only [List.length_set] at hq
        unfold Occ at oq
        show Seg d2.dropLast (at' (idx.set p _) q).pos _ 0
        change (at' (idx.set p _) q).pos ≠ 0 at oq
        show Seg d2.dropLast (at' (idx.set p _) q).pos (if (at' (idx.set p _) q).hash = eL.hash then _ else _) 0
        rw [ha] at oq ⊢
        by_cases c1 : q = p
        · rw [if_pos c1] at oq ⊢
          rw [if_pos rfl]
          refine segQ d2.dropLast ?_ ?_
          · intro y hy
            have hym : y ∈ ch eL.hash := by rw [ePQ]; simp [hy]
            have y1 : y ≠ d.length := by rintro rfl; exact ndP.2 hy
            have := le _ _ hym
            rw [drop d2 len2 y (no0 _ _ hym) (by omega)]
            exact cl2 y (no0 _ _ hym) (by rintro rfl; exact nox _ hym) y1
          · rw [drop d2 len2 x hx hlt]; exact cl2x
        · rw [if_neg c1] at oq ⊢
          have c2 : (at' idx q).hash ≠ eL.hash := fun h => c1 (uq' q hq p hp oq op (by rw [h, ep]))
          rw [if_neg c2]
          refine other d2.dropLast ?_ _ _ c2 (l.head q hq oq)
          intro y h0 h1 h2 _
          rw [drop d2 len2 y h0 h2]
          exact cl2 y h0 h1 (by omega)
      · intro h hne
        split_ifs at hne with c1
        · exact ⟨p, by simpa using hp, by unfold Occ; rw [ha, if_pos rfl]; exact hx, by rw [ha, if_pos rfl]; exact c1.symm⟩
        · obtain ⟨q, hq, oq, eq⟩ := l.slot h hne
          have q1 : q ≠ p := by rintro rfl; exact c1 (by rw [← eq, ep])
          exact ⟨q, by simpa using hq, by unfold Occ; rw [ha, if_neg q1]; exact oq, by rw [ha, if_neg q1]; exact eq⟩
    · -- the last entry has a predecessor
      rw [List.concat_eq_append] at s1 ePQ nd ndP chNew memNew
      have hPmem : ∀ y ∈ P' ++ [c'], y ∈ ch eL.hash := fun y hy => by rw [ePQ]; simp at hy ⊢; tauto
      have hPd : ∀ y ∈ P' ++ [c'], cl d2 y = cl d y := by
        intro y hy
        refine cl2 y (no0 _ _ (hPmem y hy)) (by rintro rfl; exact nox _ (hPmem _ hy)) ?_
        rintro rfl; exact ndP.1 hy
      have hpos : (at' idx p).pos ≠ d.length := by
        intro h
        cases P' with
        | nil =>
          have := s1.1
          exact ndP.1 (by rw [← h, this]; simp)
        | cons z zs =>
          have := s1.1
          exact ndP.1 (by rw [← h, this]; simp)
      have s1' : Seg d2 (at' idx p).pos (P' ++ [c']) d.length := seg_congr hPd s1
      obtain ⟨z, zs, ezs⟩ : ∃ z zs, P' ++ [c'] = z :: zs := by cases P' <;> exact ⟨_, _, rfl⟩
      have lenP : (z :: zs).length ≤ d2.length := by
        have := l.length_le eL.hash
        rw [ePQ, ezs] at this
        rw [len2]
        simp at this ⊢
        omega
      obtain ⟨P2, c2, ec, eP, hec, ew⟩ := relinkWalk_ok d.length x d2.length d2 (at' idx p).pos z zs (by rw [← ezs]; exact s1')
        lenP (by rw [← ezs]; exact ndP.1)
      rw [← ezs] at eP
      obtain ⟨rfl, e2⟩ := List.append_inj' eP rfl
      have e3 : c' = c2 := by simpa using e2
      subst e3
      rw [R.2 hpos _ ew]
      have c0 : c' ≠ 0 := no0 _ _ (hPmem c' (by simp))
      have ndc : c' ∉ P' ∧ c' ∉ Q := by
        have h1 := List.nodup_append.mp nd
        have h2 := List.nodup_append.mp h1.1
        exact ⟨fun h => h2.2.2 _ h _ (by simp) rfl, fun h => h1.2.2 c' (by simp) c' (by simp [h]) rfl⟩
      have cx : c' ≠ x := by rintro rfl; exact nox _ (hPmem _ (by simp))
      have co3 := core_set hec x
      have cl3 : ∀ y, y ≠ 0 → cl (d2.set (c' - 1) { ec with coll := x }) y = if y = c' then some x else cl d2 y :=
        fun y hy => cl_set hec x y c0 hy
      have len3 : (d2.set (c' - 1) { ec with coll := x }).length = d.length := by rw [List.length_set, len2]
      generalize d2.set (c' - 1) { ec with coll := x } = d3 at co3 cl3 len3
      have co4 : d3.dropLast.map core = ((d.map core).set (x - 1) (core eL)).dropLast := by
        rw [List.map_dropLast, co3, co2]
        simp only [List.dropLast_eq_take, List.length_set, List.length_map]
        rw [List.take_set_of_le (by omega)]
      have small : ∀ y ∈ ch eL.hash, y ≠ d.length → y < d.length := by
        intro y hy h1
        have := le _ _ hy
        omega
      refine ⟨_, rfl, pw, rh, uq, co4, _, chNew, memNew _ co4, ?_, ?_⟩
      · intro q hq oq
        show Seg d3.dropLast (at' idx q).pos (if (at' idx q).hash = eL.hash then _ else _) 0
        by_cases c1 : (at' idx q).hash = eL.hash
        · have : q = p := uq' q hq p hp oq op (by rw [c1, ep])
          subst this
          rw [if_pos c1, seg_append]
          refine ⟨x, ?_, ?_⟩
          · refine seg_redirect s1 ndc.1 ?_ ?_
            · intro y hy
              have hym := hPmem y (by simp [hy])
              have y1 : y ≠ d.length := by rintro rfl; exact ndP.1 (by simp [hy])
              rw [drop d3 len3 y (no0 _ _ hym) (small y hym y1), cl3 y (no0 _ _ hym), if_neg, hPd y (by simp [hy])]
              rintro rfl; exact ndc.1 hy
            · have hym := hPmem c' (by simp)
              have y1 : c' ≠ d.length := by rintro rfl; exact ndP.1 (by simp)
              rw [drop d3 len3 c' c0 (small c' hym y1), cl3 c' c0, if_pos rfl]
          · refine segQ d3.dropLast ?_ ?_
            · intro y hy
              have hym : y ∈ ch eL.hash := by rw [ePQ]; simp [hy]
              have y1 : y ≠ d.length := by rintro rfl; exact ndP.2 hy
              rw [drop d3 len3 y (no0 _ _ hym) (small y hym y1), cl3 y (no0 _ _ hym), if_neg]
              · exact cl2 y (no0 _ _ hym) (by rintro rfl; exact nox _ hym) y1
              · rintro rfl; exact ndc.2 hy
            · rw [drop d3 len3 x hx hlt, cl3 x hx, if_neg (fun h => cx h.symm)]; exact cl2x
        · rw [if_neg c1]
          refine other d3.dropLast ?_ _ _ c1 (l.head q hq oq)
          intro y h0 h1 h2 h3
          rw [drop d3 len3 y h0 h2, cl3 y h0, if_neg]
          · exact cl2 y h0 h1 (by omega)
          · rintro rfl; exact h3 (hPmem _ (by simp))
      · intro h hne
        split_ifs at hne with c1
        · exact ⟨p, hp, op, by rw [ep, c1]⟩
        · exact l.slot h hne

end Verif.Hash
