import Verif.HashOps
import Verif.HashSpec
/-!
# C17, C18: the hash map is a map, as long as growing the index does it no harm
-/
namespace Verif.Hash
variable {K V : Type} [DecidableEq K]

/-! ## The specification does not depend on the order of the pairs -/

namespace Spec

theorem find_some {s : List (K × V)} (hs : (s.map Prod.fst).Nodup) {k : K} {v : V} : find s k = some v ↔ (k, v) ∈ s := by
  induction s with
  | nil => simp [find]
  | cons p s ih =>
    obtain ⟨k', v'⟩ := p
    have hn := List.nodup_cons.mp hs
    unfold find at ih ⊢
    rw [List.find?_cons]
    by_cases c : k' = k
    · subst c
      simp only [decide_true, Option.map_some, Option.some.injEq, List.mem_cons, Prod.mk.injEq, true_and]
      constructor
      · intro h; exact Or.inl h.symm
      · rintro (h | h)
        · exact h.symm
        · exact absurd (List.mem_map_of_mem (f := Prod.fst) h) hn.1
    · have cd : decide (k' = k) = false := by simpa using c
      simp only [cd]
      rw [ih hn.2]
      constructor
      · intro h; exact List.mem_cons_of_mem _ h
      · intro h
        rcases List.mem_cons.mp h with h | h
        · injection h with h1 h2
          exact absurd h1.symm c
        · exact h

theorem find_perm {s t : List (K × V)} (hs : (s.map Prod.fst).Nodup) (h : s.Perm t) (k : K) : find s k = find t k := by
  apply Option.ext
  intro v
  rw [find_some hs, find_some ((h.map _).nodup_iff.mp hs), h.mem_iff]

theorem find_none {s : List (K × V)} {k : K} : find s k = none ↔ ∀ p ∈ s, p.1 ≠ k := by
  unfold find
  rw [Option.map_eq_none_iff, List.find?_eq_none]
  simp

theorem drop_self {s : List (K × V)} {k : K} (h : ∀ p ∈ s, p.1 ≠ k) : drop s k = s := by
  unfold drop
  rw [List.filter_eq_self]
  simpa using h

theorem eraseIdx_perm {s : List (K × V)} (hs : (s.map Prod.fst).Nodup) {x : Nat} {k : K} {v : V}
    (hx : s[x]? = some (k, v)) : (s.eraseIdx x).Perm (drop s k) := by
  have hlt := List.getElem?_eq_some_iff.mp hx
  have pm : s.Perm ((k, v) :: s.eraseIdx x) := by
    have := List.getElem_cons_eraseIdx_perm hlt.1
    rw [hlt.2] at this
    exact this.symm
  have hn := (pm.map Prod.fst).nodup_iff.mp hs
  have hn' := (List.nodup_cons.mp hn).1
  have h1 : drop (s.eraseIdx x) k = s.eraseIdx x := by
    apply drop_self
    intro p hp hk
    have := List.mem_map_of_mem (f := Prod.fst) hp
    rw [hk] at this
    exact hn' this
  have h2 := pm.filter (fun p => p.1 ≠ k)
  change (drop s k).Perm (drop ((k, v) :: s.eraseIdx x) k) at h2
  have h3 : drop ((k, v) :: s.eraseIdx x) k = drop (s.eraseIdx x) k := by
    unfold drop; rw [List.filter_cons_of_neg (by simp)]
  rw [h3, h1] at h2
  exact h2.symm

theorem drop_perm {s t : List (K × V)} (h : s.Perm t) (k : K) : (drop s k).Perm (drop t k) := h.filter _

theorem put_perm {s t : List (K × V)} (h : s.Perm t) (k : K) (v : V) : (put s k v).Perm (put t k v) :=
  (drop_perm h k).cons _

end Spec

/-! ## The calls on a healthy map -/

omit [DecidableEq K] in
theorem WF.nodup {hf : K → Nat} {m : Map K V} (w : WF hf m) : ((ents m).map Prod.fst).Nodup := by
  rw [ents_keys]; exact w.keys

omit [DecidableEq K] in
theorem ents_get {m : Map K V} {x : Nat} {e : DEnt K V} (he : m.data[x]? = some e) : (ents m)[x]? = some (e.key, e.value) := by
  unfold ents; rw [List.getElem?_map, he]; rfl

/-- Whether a key is in the map, through the data array. -/
theorem key_cases (m : Map K V) (k : K) :
    (∃ (x : Nat) (e : DEnt K V), m.data[x]? = some e ∧ e.key = k) ∨ (∀ e ∈ m.data, e.key ≠ k) := by
  by_cases h : ∃ e ∈ m.data, e.key = k
  · obtain ⟨e, he, hk⟩ := h
    obtain ⟨x, hx, ex⟩ := List.getElem_of_mem he
    exact Or.inl ⟨x, e, by rw [List.getElem?_eq_getElem hx, ex], hk⟩
  · right
    intro e he hk
    exact h ⟨e, he, hk⟩

theorem absent_find {m : Map K V} {k : K} (h : ∀ e ∈ m.data, e.key ≠ k) : Spec.find (ents m) k = none := by
  rw [Spec.find_none]
  intro p hp
  obtain ⟨e, he, rfl⟩ := List.mem_map.mp hp
  exact h e he

theorem WF.present_find {hf : K → Nat} {m : Map K V} (w : WF hf m) {x : Nat} {e : DEnt K V} (he : m.data[x]? = some e) :
    Spec.find (ents m) e.key = some e.value := by
  rw [Spec.find_some w.nodup]
  exact List.mem_of_getElem? (ents_get he)

/-- `ref` with a visitor, while growths are good. -/
theorem WF.refm {hf : K → Nat} {m : Map K V} (w : WF hf m) (k : K) (f : V → V) (init : V)
    (s : RefSafe m k (hf k)) :
    ∃ m', Verif.Hash.refm m k (hf k) f init = .ok m' ∧ WF hf m' ∧
      (ents m').Perm (Spec.put (ents m) k (f ((Spec.find (ents m) k).getD init))) := by
  have hc : cnt m.index ≤ m.index.length := List.countP_le_length
  obtain ⟨m1, pos, e, e1, h0, he⟩ := refLoop_total (hf := hf) k init (m.index.length + 2) m w.weak (by omega) (by omega)
  obtain ⟨w1, _, alt⟩ := refLoop_wf k init _ m w s m1 pos e1
  unfold Verif.Hash.refm
  rw [e1]
  simp only [bind, Except.bind]
  rw [modValue_ok f h0 he]
  refine ⟨_, rfl, w1.setValue (f e.value) he, ?_⟩
  have hset : ents (⟨m1.index, m1.data.set (pos - 1) { e with value := f e.value }⟩ : Map K V) =
      (ents m1).set (pos - 1) (e.key, f e.value) := by simp [ents, List.map_set]
  rw [hset]
  rcases alt with ⟨ed, e', he', hk⟩ | ⟨ha, hp, c, ed⟩
  · have hm1 : ents m1 = ents m := by unfold ents; rw [ed]
    rw [ed, he'] at he
    cases he
    subst hk
    rw [w.present_find he', Option.getD_some, hm1]
    have hx := ents_get he'
    refine (List.set_perm_cons_eraseIdx (List.getElem?_eq_some_iff.mp hx).1 _).trans ?_
    exact (Spec.eraseIdx_perm w.nodup hx).cons _
  · have hm1 : ents m1 = ents m ++ [(k, init)] := by unfold ents; rw [ed]; simp
    have ee : e = ⟨k, init, hf k, c⟩ := by
      rw [ed, hp] at he
      simpa using he.symm
    subst ee
    rw [absent_find ha, Option.getD_none, hm1, hp]
    have hl : (ents m).length = m.data.length := by simp [ents]
    rw [Nat.add_sub_cancel, ← hl, List.set_append_right _ _ (Nat.le_refl _)]
    simp only [Nat.sub_self, List.set_cons_zero]
    unfold Spec.put
    rw [Spec.drop_self (Spec.find_none.mp (absent_find ha))]
    exact List.perm_append_singleton _ _

/-- `if_ref` with a visitor. -/
theorem WF.ifRef {hf : K → Nat} {m : Map K V} (w : WF hf m) (k : K) (f : V → V) :
    ∃ m', Verif.Hash.ifRef m k (hf k) f = .ok (m', Spec.find (ents m) k) ∧ WF hf m' ∧
      match Spec.find (ents m) k with
      | none => m' = m
      | some v => (ents m').Perm (Spec.put (ents m) k (f v)) := by
  rcases key_cases m k with ⟨x, e, he, rfl⟩ | ha
  · obtain ⟨m', e1, w', en⟩ := w.ifRef_found f he
    rw [w.present_find he]
    rw [w.hashes e (List.mem_of_getElem? he)] at e1
    refine ⟨m', e1, w', ?_⟩
    simp only
    rw [en]
    have hx := ents_get he
    refine (List.set_perm_cons_eraseIdx (List.getElem?_eq_some_iff.mp hx).1 _).trans ?_
    exact (Spec.eraseIdx_perm w.nodup hx).cons _
  · rw [absent_find ha]
    exact ⟨m, ifRef_absent w.weak _ f ha, w, rfl⟩

/-- `remove` of a key. -/
theorem WF.del {hf : K → Nat} {m : Map K V} (w : WF hf m) (k : K) :
    ∃ m', Verif.Hash.remove m k (hf k) = .ok (m', Spec.find (ents m) k) ∧ WF hf m' ∧
      (ents m').Perm (Spec.drop (ents m) k) := by
  rcases key_cases m k with ⟨x, e, he, rfl⟩ | ha
  · obtain ⟨m', e1, w', z, hz, en⟩ := w.remove he
    rw [w.present_find he]
    rw [w.hashes e (List.mem_of_getElem? he)] at e1
    refine ⟨m', e1, w', ?_⟩
    have hx := ents_get he
    rw [en]
    exact (swap_remove_perm _ x (List.getElem?_eq_some_iff.mp hx).1 z hz).trans (Spec.eraseIdx_perm w.nodup hx)
  · rw [absent_find ha, Spec.drop_self (Spec.find_none.mp (absent_find ha))]
    exact ⟨m, remove_absent w.weak _ ha, w, List.Perm.refl _⟩

theorem drop_swap_remove {α : Type} (l : List α) (i : Nat) (hi : i < l.length) (z : α) (hz : l[l.length - 1]? = some z) :
    ((l.set i z).dropLast).take i = l.take i ∧ (((l.set i z).dropLast).drop i).Perm (l.drop (i + 1)) := by
  obtain ⟨A, b, B, rfl, rfl⟩ : ∃ A b B, l = A ++ b :: B ∧ A.length = i :=
    ⟨l.take i, l[i], l.drop (i + 1), by simp, by simp; omega⟩
  rw [List.set_append_right _ _ (Nat.le_refl _), Nat.sub_self, List.set_cons_zero,
    List.dropLast_append_of_ne_nil (by simp)]
  constructor
  · rw [List.take_left', List.take_left'] <;> rfl
  · rw [List.drop_left' rfl]
    have h1 := swap_remove_perm (b :: B) 0 (by simp) z (by
      rw [List.length_append, List.getElem?_append_right (by simp)] at hz
      rw [← hz]; congr 1; simp)
    rw [List.set_cons_zero] at h1
    have h2 : (A ++ b :: B).drop (A.length + 1) = B := by
      rw [show A ++ b :: B = (A ++ [b]) ++ B by simp, List.drop_left' (by simp)]
    rw [h2]
    simpa using h1

theorem WF.eachLoop {σ : Type} {hf : K → Nat} (visit : σ → K → V → σ × V × Bool) (n : Nat) (m : Map K V) (w : WF hf m)
    (i : Nat) (hi : i ≤ m.data.length) (hn : m.data.length - i < n) (s : σ) :
    ∃ m' es, Verif.Hash.eachLoop visit n m i s = .ok (m', (Spec.visitAll visit s es).1) ∧ WF hf m' ∧
      es.Perm ((ents m).drop i) ∧ ents m' = (ents m).take i ++ (Spec.visitAll visit s es).2 := by
  induction n generalizing m i s with
  | zero => omega
  | succ n ih =>
    have hl : (ents m).length = m.data.length := by simp [ents]
    unfold Verif.Hash.eachLoop
    by_cases c : i < m.data.length
    · rw [if_pos c]
      obtain ⟨e, he⟩ : ∃ e, m.data[i]? = some e := ⟨_, List.getElem?_eq_getElem c⟩
      have hrd : rd m.data i = .ok e := by unfold rd; rw [he]
      rw [hrd]
      simp only [bind, Except.bind]
      rw [wr_ok c]
      simp only
      have w1 := w.setValue (visit s e.key e.value).2.1 he
      have en1 : ents (⟨m.index, m.data.set i { e with value := (visit s e.key e.value).2.1 }⟩ : Map K V) =
          (ents m).set i (e.key, (visit s e.key e.value).2.1) := by simp [ents, List.map_set]
      have len1 : (⟨m.index, m.data.set i { e with value := (visit s e.key e.value).2.1 }⟩ : Map K V).data.length =
          m.data.length := by simp
      have he1 : (⟨m.index, m.data.set i { e with value := (visit s e.key e.value).2.1 }⟩ : Map K V).data[i]? =
          some { e with value := (visit s e.key e.value).2.1 } := by
        show (m.data.set i _)[i]? = _
        rw [List.getElem?_set_self c]
      generalize (⟨m.index, m.data.set i { e with value := (visit s e.key e.value).2.1 }⟩ : Map K V) = m1 at w1 en1 len1 he1
      have hd : (ents m).drop i = (e.key, e.value) :: (ents m).drop (i + 1) := by
        rw [List.drop_eq_getElem_cons (by omega)]
        congr 1
        have := ents_get he
        rw [List.getElem?_eq_getElem (by omega)] at this
        exact Option.some.inj this
      have ht1 : (ents m1).take i = (ents m).take i := by rw [en1, List.take_set_of_le (Nat.le_refl _)]
      have hd1 : (ents m1).drop (i + 1) = (ents m).drop (i + 1) := by
        rw [en1, List.drop_set_of_lt (by omega)]
      by_cases c2 : (visit s e.key e.value).2.2 = true
      · rw [if_pos c2]
        obtain ⟨m2, e2, w2, z, hz, en2⟩ := w1.remove he1
        simp only at e2
        rw [e2]
        simp only
        have hl1 : (ents m1).length = m.data.length := by rw [en1]; simpa using hl
        have len2 : m2.data.length = m.data.length - 1 := by
          have : (ents m2).length = m2.data.length := by simp [ents]
          rw [← this, en2, List.length_dropLast, List.length_set, hl1]
        obtain ⟨q1, q2⟩ := drop_swap_remove (ents m1) i (by omega) z hz
        obtain ⟨m', es, ee, w', pm, en⟩ := ih m2 w2 i (by omega) (by omega) (visit s e.key e.value).1
        refine ⟨m', (e.key, e.value) :: es, ?_, w', ?_, ?_⟩
        · rw [ee]; rfl
        · rw [hd, ← hd1]
          rw [en2] at pm
          exact (pm.trans q2).cons _
        · rw [en, en2, q1, ht1]
          congr 1
          show _ = if _ then _ else _
          rw [if_pos c2]
      · rw [if_neg c2]
        obtain ⟨m', es, ee, w', pm, en⟩ := ih m1 w1 (i + 1) (by omega) (by omega) (visit s e.key e.value).1
        refine ⟨m', (e.key, e.value) :: es, ?_, w', ?_, ?_⟩
        · rw [ee]; rfl
        · rw [hd, ← hd1]
          exact pm.cons _
        · rw [en]
          have : (ents m1).take (i + 1) = (ents m).take i ++ [(e.key, (visit s e.key e.value).2.1)] := by
            rw [List.take_add_one, ht1, en1, List.getElem?_set_self (by omega)]
            rfl
          rw [this, List.append_assoc]
          congr 1
          show _ = if _ then _ else _
          rw [if_neg c2]
          rfl
    · rw [if_neg c]
      have hd : (ents m).drop i = [] := List.drop_eq_nil_iff.mpr (by omega)
      refine ⟨m, [], rfl, w, by rw [hd], ?_⟩
      show _ = _ ++ []
      rw [List.append_nil, List.take_of_length_le (by omega)]

/-! ## Histories -/

/-- A call is safe when, should it grow the index, the grown index passes the assertions of `Verify`. -/
def OpSafe (h : K → Int) (m : Map K V) : Op K V → Prop
  | .set k _ => RefSafe m k (foldSign (h k))
  | .update k _ _ => RefSafe m k (foldSign (h k))
  | _ => True

/-- Every call of the history is safe in the state it is made in. -/
def Safe (h : K → Int) (dflt : V) : Map K V → List (Op K V) → Prop
  | _, [] => True
  | m, op :: ops => OpSafe h m op ∧ ∀ m' o, step h dflt m op = .ok (m', o) → Safe h dflt m' ops

omit [DecidableEq K] in
theorem seeing_visits (visit : List (K × V) → K → V → V × Bool) (seen es : List (K × V)) :
    (Spec.visitAll (seeing visit) seen es).1 = seen ++ es := by
  induction es generalizing seen with
  | nil => simp [Spec.visitAll]
  | cons p es ih =>
    obtain ⟨k, v⟩ := p
    show (Spec.visitAll (seeing visit) (seen ++ [(k, v)]) es).1 = _
    rw [ih]; simp

omit [DecidableEq K] in
theorem WF.empty (hf : K → Nat) : WF hf (Map.empty : Map K V) := by
  refine ⟨Or.inl rfl, ⟨fun p hp => by simp [Map.empty] at hp, fun p hp => by simp [Map.empty] at hp⟩, by simp [Uniq, Map.empty],
    by simp [Map.empty], by simp [Map.empty], fun _ => [], ⟨by simp, ?_, fun p hp => by simp [Map.empty] at hp, by simp⟩⟩
  intro h x
  simp [PosOf, Map.empty]

/-- One call on a healthy map: it does what the same call does on the finite map of its pairs. -/
theorem step_ok (h : K → Int) (dflt : V) (m : Map K V) (w : WF (fun k => foldSign (h k)) m) (op : Op K V)
    (safe : OpSafe h m op) (s : List (K × V)) (hs : (ents m).Perm s) :
    ∃ m' o s', step h dflt m op = .ok (m', o) ∧ WF (fun k => foldSign (h k)) m' ∧ SpecStep s op s' o ∧
      (ents m').Perm s' := by
  have fp : ∀ k, Spec.find (ents m) k = Spec.find s k := Spec.find_perm w.nodup hs
  cases op with
  | set k v =>
    obtain ⟨m', e, w', p⟩ := w.refm k (fun _ => v) dflt safe
    refine ⟨m', .unit, _, ?_, w', .set s k v, p.trans (Spec.put_perm hs k v)⟩
    simp only [step, set, bind, Except.bind]
    rw [e]
  | update k f init =>
    obtain ⟨m', e, w', p⟩ := w.refm k f init safe
    refine ⟨m', .unit, _, ?_, w', .update s k f init, ?_⟩
    · simp only [step, bind, Except.bind]
      rw [e]
    · rw [fp] at p
      exact p.trans (Spec.put_perm hs k _)
  | modify k f =>
    obtain ⟨m', e, w', p⟩ := w.ifRef k f
    rw [fp] at e p
    cases hc : Spec.find s k with
    | none =>
      rw [hc] at e p
      simp only at p
      subst p
      refine ⟨m', .value none, s, ?_, w', .modify_none s k f hc, hs⟩
      simp only [step, bind, Except.bind]
      rw [e]
    | some v =>
      rw [hc] at e p
      simp only at p
      refine ⟨m', .value (some v), _, ?_, w', .modify_some s k f v hc, p.trans (Spec.put_perm hs k _)⟩
      simp only [step, bind, Except.bind]
      rw [e]
  | get k =>
    obtain ⟨m', e, w', p⟩ := w.ifRef k id
    refine ⟨m, .value (Spec.find s k), s, ?_, w, .get s k, hs⟩
    simp only [step, get, bind, Except.bind]
    rw [e, fp]
  | remove k =>
    obtain ⟨m', e, w', p⟩ := w.del k
    refine ⟨m', .value (Spec.find s k), _, ?_, w', .remove s k, p.trans (Spec.drop_perm hs k)⟩
    simp only [step, del, bind, Except.bind]
    rw [e, fp]
  | len =>
    refine ⟨m, .num s.length, s, ?_, w, .len s, hs⟩
    have : len m = s.length := by rw [← hs.length_eq]; simp [len, ents]
    simp only [step, this]
  | clear =>
    exact ⟨Map.empty, .unit, [], rfl, WF.empty _, .clear s, List.Perm.refl _⟩
  | each visit =>
    obtain ⟨m', es, e, w', p, en⟩ := w.eachLoop (seeing visit) (m.data.length + 1) m 0 (by omega) (by omega) []
    rw [seeing_visits, List.nil_append] at e
    rw [List.drop_zero] at p
    rw [List.take_zero, List.nil_append] at en
    refine ⟨m', .pairs es, _, ?_, w', .each s visit es (p.trans hs), by rw [en]⟩
    simp only [step, each, bind, Except.bind]
    rw [e]

/-- **C17** (partial: for histories whose growths leave an index that passes `Verify`; `C17_lost_key` shows that the
unrestricted statement is false).  Every such history of calls runs without a fault and returns what the same history
returns on a finite map; at the end the pairs are those of the finite map. -/
theorem C17_map_partial (h : K → Int) (dflt : V) (ops : List (Op K V)) (safe : Safe h dflt Map.empty ops) :
    ∃ m outs s, run h dflt Map.empty ops = .ok (m, outs) ∧ SpecRun [] ops s outs ∧ (ents m).Perm s := by
  have main : ∀ (ops : List (Op K V)) (m : Map K V) (s : List (K × V)), WF (fun k => foldSign (h k)) m → (ents m).Perm s →
      Safe h dflt m ops → ∃ m' outs s', run h dflt m ops = .ok (m', outs) ∧ SpecRun s ops s' outs ∧ (ents m').Perm s' := by
    intro ops
    induction ops with
    | nil => intro m s _ hs _; exact ⟨m, [], s, rfl, .nil s, hs⟩
    | cons op ops ih =>
      intro m s w hs safe
      obtain ⟨m1, o, s1, e, w1, sp, hs1⟩ := step_ok h dflt m w op safe.1 s hs
      obtain ⟨m2, outs, s2, e2, sp2, hs2⟩ := ih m1 s1 w1 hs1 (safe.2 m1 o e)
      refine ⟨m2, o :: outs, s2, ?_, .cons _ _ _ _ _ _ _ sp sp2, hs2⟩
      simp only [run, bind, Except.bind, e, e2]
  exact main ops Map.empty [] (WF.empty _) (List.Perm.refl _) safe

end Verif.Hash
