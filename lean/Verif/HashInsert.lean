import Verif.HashChain
/-!
# Insertion and in-place change of values
-/
namespace Verif.Hash
variable {K V : Type} [DecidableEq K]

theorem RH.congr {idx idx' : List IEnt} (rh : RH idx) (hl : idx'.length = idx.length)
    (hh : ∀ p < idx.length, (at' idx' p).hash = (at' idx p).hash ∧ (Occ idx' p ↔ Occ idx p)) : RH idx' := by
  have dd : ∀ p < idx.length, D idx' p = D idx p := by
    intro p hp; unfold D; rw [hl, (hh p hp).1]
  constructor
  · intro p hp op
    rw [hl] at hp ⊢
    rw [dd p hp]
    exact rh.bound p hp ((hh p hp).2.mp op)
  · intro p hp on dn
    rw [hl] at hp on dn ⊢
    have hq : (p + 1) % idx.length < idx.length := Nat.mod_lt _ (by omega)
    rw [dd p hp, dd _ hq, (hh p hp).2]
    rw [dd _ hq] at dn
    exact rh.link p hp ((hh _ hq).2.mp on) dn

theorem uniq_congr {idx idx' : List IEnt} (u : Uniq idx) (hl : idx'.length = idx.length)
    (hh : ∀ p < idx.length, Occ idx' p → (at' idx' p).hash = (at' idx p).hash ∧ Occ idx p) : Uniq idx' := by
  rw [uniq_iff] at u ⊢
  intro p hp q hq op oq e
  rw [hl] at hp hq
  have h1 := hh p hp op
  have h2 := hh q hq oq
  exact u p hp q hq h1.2 h2.2 (by rw [← h1.1, ← h2.1, e])

/-- Where a search stops at a free slot, the hash is nowhere in the index. -/
theorem RH.free_absent {idx : List IEnt} (rh : RH idx) {h J : Nat} (nocc : ¬ Occ idx ((h + J) % idx.length))
    (busy : ∀ j < J, Occ idx ((h + j) % idx.length) ∧ (at' idx ((h + j) % idx.length)).hash ≠ h)
    {p : Nat} (hp : p < idx.length) (op : Occ idx p) : (at' idx p).hash ≠ h := by
  intro e
  obtain ⟨J', hJ', es, occ'⟩ := rh.hit hp op
  rw [e] at es occ'
  by_cases c : J ≤ J'
  · exact nocc (occ' J c)
  · exact (busy J' (by omega)).2 (by rw [es]; exact e)

omit [DecidableEq K] in
theorem posOf_append (d : List (DEnt K V)) (e : DEnt K V) (h x : Nat) :
    PosOf (d ++ [e]) h x ↔ PosOf d h x ∨ (x = d.length + 1 ∧ e.hash = h) := by
  unfold PosOf
  constructor
  · rintro ⟨h0, e', he, hh⟩
    rw [List.getElem?_append] at he
    split_ifs at he with c
    · exact Or.inl ⟨h0, e', he, hh⟩
    · right
      have := List.getElem?_eq_some_iff.mp he
      have hz : x - 1 - d.length = 0 := by
        have := this.1
        simp at this; omega
      rw [hz] at he
      simp only [List.getElem?_cons_zero, Option.some.injEq] at he
      exact ⟨by omega, by rw [he]; exact hh⟩
  · rintro (⟨h0, e', he, hh⟩ | ⟨rfl, hh⟩)
    · refine ⟨h0, e', ?_, hh⟩
      rw [List.getElem?_append_left (List.getElem?_eq_some_iff.mp he).1]
      exact he
    · exact ⟨by omega, e, by simp, hh⟩

omit [DecidableEq K] in
theorem cl_append {d : List (DEnt K V)} (e : DEnt K V) {h x : Nat} (p : PosOf d h x) : cl (d ++ [e]) x = cl d x := by
  unfold cl
  have := p.le
  rw [List.getElem?_append_left (by omega)]

omit [DecidableEq K] in
/-- The buckets after an insertion at the head of one of them. -/
theorem Linked.insert {idx idx' : List IEnt} {d : List (DEnt K V)} {ch : Nat → List Nat} (l : Linked idx d 0 ch)
    (key : K) (v : V) (h c : Nat)
    (hm : ∀ e : IEnt, e.pos ≠ 0 → (e ∈ idx' ↔ e = ⟨h, d.length + 1⟩ ∨ (e ∈ idx ∧ e.hash ≠ h)))
    (hc : Seg d c (ch h) 0) :
    Linked idx' (d ++ [⟨key, v, h, c⟩]) 0 (fun h' => if h' = h then (d.length + 1) :: ch h else ch h') := by
  have cong : ∀ {h' a}, Seg d a (ch h') 0 → Seg (d ++ [⟨key, v, h, c⟩]) a (ch h') 0 := by
    intro h' a s
    refine seg_congr ?_ s
    intro x hx
    exact cl_append _ ((l.mem _ _).mp hx).2
  refine ⟨?_, ?_, ?_, ?_⟩
  · intro h'
    split_ifs
    · rw [List.nodup_cons]
      refine ⟨?_, l.nodup h⟩
      intro hx
      have := ((l.mem _ _).mp hx).2.le
      omega
    · exact l.nodup h'
  · intro h' x
    rw [posOf_append]
    split_ifs with e
    · subst e
      rw [List.mem_cons, l.mem]
      constructor
      · rintro (rfl | ⟨h1, h2⟩)
        · exact ⟨by omega, Or.inr ⟨rfl, rfl⟩⟩
        · exact ⟨h1, Or.inl h2⟩
      · rintro ⟨h0, h1 | ⟨h1, _⟩⟩
        · exact Or.inr ⟨h0, h1⟩
        · exact Or.inl h1
    · rw [l.mem]
      constructor
      · rintro ⟨h1, h2⟩; exact ⟨h1, Or.inl h2⟩
      · rintro ⟨h0, h1 | ⟨_, h1⟩⟩
        · exact ⟨h0, h1⟩
        · exact absurd h1.symm e
  · intro p hp op
    rcases (hm _ op).mp (at_mem hp) with e | ⟨e, hne⟩
    · rw [e]
      dsimp only
      rw [if_pos rfl]
      exact ⟨rfl, by omega, c, by simp [cl], cong hc⟩
    · rw [if_neg hne]
      obtain ⟨q, hq, eq⟩ := mem_at e
      rw [← eq]
      exact cong (l.head q hq (by unfold Occ; rw [eq]; exact op))
  · intro h' hne
    by_cases e : h' = h
    · obtain ⟨q, hq, eq⟩ := mem_at ((hm ⟨h, d.length + 1⟩ (by simp)).mpr (Or.inl rfl))
      exact ⟨q, hq, by unfold Occ; rw [eq]; simp, by rw [eq]; exact e.symm⟩
    · rw [if_neg e] at hne
      obtain ⟨p, hp, op, ep⟩ := l.slot h' hne
      obtain ⟨q, hq, eq⟩ := mem_at ((hm _ op).mpr (Or.inr ⟨at_mem hp, by rw [ep]; exact e⟩))
      exact ⟨q, hq, by unfold Occ; rw [eq]; exact op, by rw [eq]; exact ep⟩

/-- Inserting a new key into a healthy map. -/
theorem WF.insert {hf : K → Nat} {m : Map K V} (w : WF hf m) {key : K} {init : V} {i fair : Nat}
    (er : route m key (hf key) = .ok (.avail i fair)) (hk : ∀ e ∈ m.data, e.key ≠ key) :
    ∃ m' c, insertAt m key (hf key) init i fair = .ok m' ∧ WF hf m' ∧
      m'.data = m.data ++ [⟨key, init, hf key, c⟩] := by
  obtain ⟨ch, l⟩ := w.linked
  obtain ⟨r, er', rk⟩ := w.weak.route_ok key (hf key)
  rw [er] at er'
  cases er'
  have hKL := pow_maxProbes_le w.pw
  have keys' : ∀ c, ((m.data ++ [(⟨key, init, hf key, c⟩ : DEnt K V)]).map DEnt.key).Nodup := by
    intro c
    rw [List.map_append, List.nodup_append]
    refine ⟨w.keys, by simp, ?_⟩
    intro a ha b hb e
    simp only [List.map_cons, List.map_nil, List.mem_singleton] at hb
    obtain ⟨e', he', rfl⟩ := List.mem_map.mp ha
    exact hk e' he' (by rw [e, hb])
  have hashes' : ∀ c, ∀ e ∈ m.data ++ [(⟨key, init, hf key, c⟩ : DEnt K V)], e.hash = hf e.key := by
    intro c e he
    rcases List.mem_append.mp he with he | he
    · exact w.hashes e he
    · simp only [List.mem_singleton] at he
      subst he; rfl
  cases rk with
  | same J hJ occ eq chain =>
    have hL : 0 < m.index.length := by omega
    have hi : (hf key + J) % m.index.length < m.index.length := Nat.mod_lt _ hL
    generalize hI : (hf key + J) % m.index.length = I at *
    unfold insertAt makeFair
    rw [if_pos rfl]
    simp only [bind, Except.bind]
    rw [rd_at hi]
    simp only
    rw [wr_ok hi]
    refine ⟨_, (at' m.index I).pos, rfl, ?_, rfl⟩
    have ha := at_set hi (⟨hf key, (m.data ++ [(⟨key, init, hf key, (at' m.index I).pos⟩ : DEnt K V)]).length⟩)
    have hlen : (m.data ++ [(⟨key, init, hf key, (at' m.index I).pos⟩ : DEnt K V)]).length = m.data.length + 1 := by simp
    have uq := (uniq_iff _).mp w.uq
    refine ⟨by simpa using w.pw, ?_, ?_, keys' _, hashes' _, ?_⟩
    · refine w.rh.congr (by simp) ?_
      intro p _
      unfold Occ
      rw [ha]
      split_ifs with c
      · subst c; exact ⟨eq.symm, ⟨fun _ => occ, fun _ => by simp⟩⟩
      · exact ⟨rfl, Iff.rfl⟩
    · refine uniq_congr w.uq (by simp) ?_
      intro p _ op
      unfold Occ at op ⊢
      rw [ha] at op ⊢
      split_ifs with c
      · subst c; exact ⟨eq.symm, occ⟩
      · rw [if_neg c] at op; exact ⟨rfl, op⟩
    · refine ⟨_, l.insert key init (hf key) _ ?_ ?_⟩
      · intro e he
        constructor
        · intro hm
          obtain ⟨q, hq, eq'⟩ := mem_at hm
          rw [ha] at eq'
          split_ifs at eq' with c
          · left; rw [← eq', hlen]
          · right
            simp only [List.length_set] at hq
            rw [← eq']
            refine ⟨at_mem hq, fun h1 => c (uq q hq I hi ?_ occ (by rw [h1, eq]))⟩
            unfold Occ; rw [eq']; exact he
        · rintro (rfl | ⟨h1, h2⟩)
          · have : at' (m.index.set I _) I = _ := (ha I).trans (if_pos rfl)
            rw [hlen] at this
            have hm := at_mem (l := m.index.set I ⟨hf key, m.data.length + 1⟩) (i := I) (by simpa using hi)
            rw [this] at hm
            show _ ∈ m.index.set I _
            rw [hlen]
            exact hm
          · obtain ⟨q, hq, eq'⟩ := mem_at h1
            have c : q ≠ I := by
              rintro rfl
              exact h2 (by rw [← eq', eq])
            have : at' (m.index.set I _) q = _ := (ha q).trans (if_neg c)
            rw [eq'] at this
            rw [← this]
            exact at_mem (by simpa using hq)
      · have := l.head I hi occ
        rwa [eq] at this
  | free J F hJ hF nocc busy near fair =>
    have hL : 0 < m.index.length := by omega
    obtain ⟨idx0, idx', e0, l0, p0, e1, l1, ha⟩ := place_ok (hf key) m.index J F (by omega) hF
      ⟨hf key, m.data.length + 1⟩ nocc
    have absent : ∀ p < m.index.length, Occ m.index p → (at' m.index p).hash ≠ hf key :=
      fun p hp op => w.rh.free_absent nocc busy hp op
    have hfree : ch (hf key) = [] := by
      by_contra hne
      obtain ⟨p, hp, op, ep⟩ := l.slot _ hne
      exact absent p hp op ep
    unfold insertAt
    rw [e0]
    simp only [bind, Except.bind]
    rw [rd_at (by rw [l0]; exact Nat.mod_lt _ hL)]
    simp only
    rw [p0]
    simp only [List.length_append, List.length_cons, List.length_nil, Nat.zero_add]
    rw [e1]
    refine ⟨_, 0, rfl, ?_, rfl⟩
    -- the old place of what is now at probe `t`
    have src : ∀ t < m.index.length, t ≠ F → Occ idx' ((hf key + t) % m.index.length) →
        ∃ s < m.index.length, at' idx' ((hf key + t) % m.index.length) = at' m.index ((hf key + s) % m.index.length) ∧
          Occ m.index ((hf key + s) % m.index.length) ∧ (s = if F < t ∧ t ≤ J then t - 1 else t) := by
      intro t ht tF o
      have e := ha t ht
      rw [if_neg tF] at e
      by_cases c : F < t ∧ t ≤ J
      · rw [if_pos c] at e
        exact ⟨t - 1, by omega, e, by unfold Occ at *; rwa [e] at o, by rw [if_pos c]⟩
      · rw [if_neg c] at e
        exact ⟨t, ht, e, by unfold Occ at *; rwa [e] at o, by rw [if_neg c]⟩
    have uq := (uniq_iff _).mp w.uq
    refine ⟨by rw [l1]; exact w.pw, ?_, ?_, keys' _, hashes' _, ?_⟩
    · exact w.rh.place w.pw J F (m.data.length + 1) (by omega) hJ hF nocc (fun j hj => (busy j hj).1) near fair l1 ha
    · show Uniq idx'
      rw [uniq_iff, l1]
      intro p hp q hq op oq e
      obtain ⟨t, ht, rfl⟩ := slot_cover hp (hf key)
      obtain ⟨u, hu, rfl⟩ := slot_cover hq (hf key)
      by_cases tF : t = F
      · by_cases uF : u = F
        · rw [tF, uF]
        · exfalso
          obtain ⟨s, hs, es, os, _⟩ := src u hu uF oq
          rw [ha t ht, if_pos tF, es] at e
          exact absent _ (Nat.mod_lt _ hL) os e.symm
      · obtain ⟨s, hs, es, os, hs'⟩ := src t ht tF op
        by_cases uF : u = F
        · exfalso
          rw [ha u hu, if_pos uF, es] at e
          exact absent _ (Nat.mod_lt _ hL) os e
        · obtain ⟨s2, hs2, es2, os2, hs2'⟩ := src u hu uF oq
          rw [es, es2] at e
          have := slot_inj hs hs2 (uq _ (Nat.mod_lt _ hL) _ (Nat.mod_lt _ hL) os os2 e)
          have : t = u := by
            split_ifs at hs' hs2' <;> omega
          rw [this]
    · refine ⟨_, l.insert key init (hf key) 0 ?_ (by rw [hfree]; rfl)⟩
      intro e he
      constructor
      · intro hm
        obtain ⟨q, hq, eq'⟩ := mem_at hm
        change q < idx'.length at hq
        rw [l1] at hq
        obtain ⟨t, ht, rfl⟩ := slot_cover hq (hf key)
        by_cases tF : t = F
        · left
          rw [← eq', ha t ht, if_pos tF]
        · obtain ⟨s, hs, es, os, _⟩ := src t ht tF (by unfold Occ; rw [eq']; exact he)
          right
          rw [← eq', es]
          exact ⟨at_mem (Nat.mod_lt _ hL), absent _ (Nat.mod_lt _ hL) os⟩
      · have get : ∀ t < m.index.length, at' idx' ((hf key + t) % m.index.length) ∈ idx' := by
          intro t _; exact at_mem (by rw [l1]; exact Nat.mod_lt _ hL)
        rintro (rfl | ⟨h1, h2⟩)
        · have := get F (by omega)
          rwa [ha F (by omega), if_pos rfl] at this
        · obtain ⟨q, hq, eq'⟩ := mem_at h1
          obtain ⟨t, ht, rfl⟩ := slot_cover hq (hf key)
          have tJ : t ≠ J := by
            rintro rfl
            apply nocc
            unfold Occ; rw [eq']; exact he
          by_cases c : F ≤ t ∧ t < J
          · have := get (t + 1) (by omega)
            rw [ha (t + 1) (by omega), if_neg (by omega), if_pos (by omega), Nat.add_sub_cancel, eq'] at this
            exact this
          · have := get t ht
            rw [ha t ht, if_neg (by omega), if_neg (by omega), eq'] at this
            exact this

omit [DecidableEq K] in
/-- Insertion never faults, even on an index whose Robin-Hood order is lost. -/
theorem insertAt_total (m : Map K V) (key : K) (h : Nat) (init : V) (i fair : Nat)
    (hif : (i = fair ∧ i < m.index.length) ∨ ∃ J F, J < m.index.length ∧ F ≤ J ∧ ¬ Occ m.index ((h + J) % m.index.length) ∧
      i = (h + J) % m.index.length ∧ fair = (h + F) % m.index.length) :
    ∃ m' c, insertAt m key h init i fair = .ok m' ∧ m'.data = m.data ++ [⟨key, init, h, c⟩] := by
  rcases hif with ⟨rfl, hi⟩ | ⟨J, F, hJ, hF, nocc, rfl, rfl⟩
  · unfold insertAt makeFair
    rw [if_pos rfl]
    simp only [bind, Except.bind]
    rw [rd_at hi]
    simp only
    rw [wr_ok hi]
    exact ⟨_, _, rfl, rfl⟩
  · obtain ⟨idx0, idx', e0, l0, p0, e1, l1, ha⟩ := place_ok h m.index J F hJ hF ⟨h, m.data.length + 1⟩ nocc
    unfold insertAt
    rw [e0]
    simp only [bind, Except.bind]
    rw [rd_at (by rw [l0]; exact Nat.mod_lt _ (by omega))]
    simp only
    rw [p0]
    simp only [List.length_append, List.length_cons, List.length_nil, Nat.zero_add]
    rw [e1]
    exact ⟨_, _, rfl, rfl⟩

omit [DecidableEq K] in
theorem dat_ok {d : List (DEnt K V)} {x : Nat} {e : DEnt K V} (hx : x ≠ 0) (he : d[x - 1]? = some e) :
    dat d x = .ok e := by
  unfold dat rd
  rw [if_neg hx, he]

omit [DecidableEq K] in
theorem datSet_ok {d : List (DEnt K V)} {x : Nat} (hx : x ≠ 0) (hl : x - 1 < d.length) (v : DEnt K V) :
    datSet d x v = .ok (d.set (x - 1) v) := by
  unfold datSet
  rw [if_neg hx, wr_ok hl]

omit [DecidableEq K] in
theorem modValue_ok {d : List (DEnt K V)} {x : Nat} {e : DEnt K V} (f : V → V) (hx : x ≠ 0) (he : d[x - 1]? = some e) :
    modValue d x f = .ok (d.set (x - 1) { e with value := f e.value }) := by
  unfold modValue
  rw [dat_ok hx he]
  simp only [bind, Except.bind]
  rw [datSet_ok hx (List.getElem?_eq_some_iff.mp he).1]

omit [DecidableEq K] in
/-- Links and hashes decide whether the buckets are linked. -/
theorem Linked.congr {idx : List IEnt} {d d' : List (DEnt K V)} {skip : Nat} {ch : Nat → List Nat}
    (l : Linked idx d skip ch) (h : ∀ x : Nat, (d'[x]?).map (fun e => (e.hash, e.coll)) = (d[x]?).map (fun e => (e.hash, e.coll))) :
    Linked idx d' skip ch := by
  have hc : ∀ x, cl d' x = cl d x := by
    intro x
    have := congrArg (Option.map Prod.snd) (h (x - 1))
    simpa [cl, Option.map_map, Function.comp_def] using this
  have hp : ∀ h x, PosOf d' h x ↔ PosOf d h x := by
    intro g x
    have := congrArg (Option.map Prod.fst) (h (x - 1))
    simp only [Option.map_map, Function.comp_def] at this
    unfold PosOf
    have h1 : ∀ (dd : List (DEnt K V)), (∃ e, dd[x - 1]? = some e ∧ e.hash = g) ↔ (dd[x - 1]?).map DEnt.hash = some g := by
      intro dd; rw [Option.map_eq_some_iff]
    rw [h1, h1, this]
  refine ⟨l.nodup, ?_, ?_, l.slot⟩
  · intro g x; rw [l.mem, hp]
  · intro p hp' op
    exact seg_congr (fun x _ => hc x) (l.head p hp' op)

omit [DecidableEq K] in
/-- Changing a value leaves the map healthy. -/
theorem WF.setValue {hf : K → Nat} {m : Map K V} (w : WF hf m) {x : Nat} {e : DEnt K V} (v : V)
    (he : m.data[x]? = some e) : WF hf ⟨m.index, m.data.set x { e with value := v }⟩ := by
  obtain ⟨ch, l⟩ := w.linked
  have hx := (List.getElem?_eq_some_iff.mp he).1
  have hk : (m.data.set x { e with value := v }).map DEnt.key = m.data.map DEnt.key := by
    rw [List.map_set]
    apply List.ext_getElem?
    intro n
    rw [List.getElem?_set]
    split_ifs with c c2
    · subst c; simp [he]
    · subst c; simp at c2; omega
    · rfl
  refine ⟨w.pw, w.rh, w.uq, by show ((m.data.set x { e with value := v }).map DEnt.key).Nodup; rw [hk]; exact w.keys,
    ?_, ch, l.congr ?_⟩
  · intro e' he'
    rcases List.mem_or_eq_of_mem_set he' with h1 | h1
    · exact w.hashes e' h1
    · rw [h1]; exact w.hashes e (List.mem_of_getElem? he)
  · intro n
    show ((m.data.set x { e with value := v })[n]?).map _ = _
    rw [List.getElem?_set]
    split_ifs with c
    · subst c; simp [he]
    · rfl

end Verif.Hash
