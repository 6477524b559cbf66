import Verif.Compile
/-!
# Discovering the dependencies: the module list stays consistent, and the discovery ends
-/
namespace Verif.Compile
open Verif

variable {Out : Type} (X : Front Out) (fs : Files)

/-- A module that has an order: its input is the file on disk, its imports are known, and they have smaller orders. -/
def Good (st : St Out) (m : Mod Out) : Prop :=
  ∃ imps, fs m.fname ≠ [] ∧ X.parse m.fname (fs m.fname) = .ok (imps.map (·.1)) ∧ m.inp = some (fs m.fname, imps) ∧
    ∀ (p : Str) (j : Nat), (p, j) ∈ imps → ∃ m' : Mod Out, st[j]? = some m' ∧ m'.fname = X.resolve fs m.fname p ∧ m'.order ≠ 0 ∧ m'.order < m.order

/-- The output of a module was made from the outputs its imports have now. -/
def Fresh (st : St Out) (m : Mod Out) (o : Out) : Prop :=
  ∃ imps outs, m.inp = some (fs m.fname, imps) ∧ imps.map (fun p => (st[p.2]?).bind (·.out)) = outs.map some ∧
    X.solve m.fname (fs m.fname) outs = .ok o

structure J (st : St Out) : Prop where
  nodup : (st.map (·.fname)).Nodup
  prelude : ∃ m : Mod Out, st[0]? = some m ∧ m.order = 0 ∧ m.inp.isSome = true ∧ m.out.isSome = true
  good : ∀ (i : Nat) (m : Mod Out), i ≠ 0 → st[i]? = some m → m.order ≠ 0 → Good X fs st m
  blank : ∀ (i : Nat) (m : Mod Out), i ≠ 0 → st[i]? = some m → m.order = 0 → m.out = none
  fresh : ∀ (i : Nat) (m : Mod Out) (o : Out), i ≠ 0 → st[i]? = some m → m.out = some o → Fresh X fs st m o

/-- What discovery may do to the list: modules are added, modules without input are filled in; nothing else changes. -/
def Ext (st st' : St Out) : Prop :=
  ∀ (i : Nat) (m : Mod Out), st[i]? = some m →
    ∃ m' : Mod Out, st'[i]? = some m' ∧ m'.fname = m.fname ∧ (m.inp.isSome = true → m' = m)

theorem Ext.refl (st : St Out) : Ext st st := fun _ m h => ⟨m, h, rfl, fun _ => rfl⟩

theorem Ext.trans {a b c : St Out} (h1 : Ext a b) (h2 : Ext b c) : Ext a c := by
  intro i m h
  obtain ⟨m', e1, f1, k1⟩ := h1 i m h
  obtain ⟨m'', e2, f2, k2⟩ := h2 i m' e1
  refine ⟨m'', e2, f2.trans f1, fun hm => ?_⟩
  have := k1 hm; subst this
  exact k2 hm

variable {X fs}

theorem Good.inp {st : St Out} {m : Mod Out} (h : Good X fs st m) : m.inp.isSome = true := by
  obtain ⟨imps, _, _, h, _⟩ := h; rw [h]; rfl

theorem J.order_inp {st : St Out} (h : J X fs st) {i : Nat} {m : Mod Out} (hm : st[i]? = some m) (ho : m.order ≠ 0) :
    i ≠ 0 ∧ m.inp.isSome = true := by
  have : i ≠ 0 := by
    intro e; subst e
    obtain ⟨m0, e0, h0, _⟩ := h.prelude
    rw [hm] at e0; cases e0; exact ho h0
  exact ⟨this, (h.good i m this hm ho).inp⟩

theorem Good.ext {st st' : St Out} (hj : J X fs st) (he : Ext st st') {m : Mod Out} (h : Good X fs st m) : Good X fs st' m := by
  obtain ⟨imps, h1, h2, h3, h4⟩ := h
  refine ⟨imps, h1, h2, h3, fun p j hp => ?_⟩
  obtain ⟨m', e, a, b, c⟩ := h4 p j hp
  obtain ⟨m'', e', _, k⟩ := he j m' e
  have := k (hj.order_inp e b).2; subst this
  exact ⟨m'', e', a, b, c⟩

theorem Fresh.ext {st st' : St Out} (he : Ext st st') (hin : ∀ (j : Nat) (m' : Mod Out), st[j]? = some m' → m'.out.isSome = true → m'.inp.isSome = true)
    {m : Mod Out} {o : Out} (h : Fresh X fs st m o) : Fresh X fs st' m o := by
  obtain ⟨imps, outs, h1, h2, h3⟩ := h
  refine ⟨imps, outs, h1, ?_, h3⟩
  rw [← h2]
  apply List.map_congr_left
  intro p hp
  have : (st[p.2]?).bind (·.out) ∈ outs.map some := by rw [← h2]; exact List.mem_map.2 ⟨p, hp, rfl⟩
  obtain ⟨o', _, ho'⟩ := List.mem_map.1 this
  cases hm : st[p.2]? with
  | none => rw [hm] at ho'; cases ho'
  | some m' =>
    rw [hm] at ho'
    have ho' : m'.out = some o' := ho'.symm
    obtain ⟨m'', e', _, k⟩ := he p.2 m' hm
    have := k (hin p.2 m' hm (by rw [ho']; rfl)); subst this
    rw [e']

theorem J.out_inp {st : St Out} (h : J X fs st) (j : Nat) (m : Mod Out) (hm : st[j]? = some m) (ho : m.out.isSome = true) :
    m.inp.isSome = true := by
  by_cases h0 : j = 0
  · subst h0
    obtain ⟨m0, e0, _, h0, _⟩ := h.prelude
    rw [hm] at e0; cases e0; exact h0
  · obtain ⟨o, ho⟩ := Option.isSome_iff_exists.1 ho
    obtain ⟨imps, outs, hi, _⟩ := h.fresh j m o h0 hm ho
    rw [hi]; rfl

/-! ## `getModule` -/

theorem getModule_spec (st : St Out) (hj : J X fs st) (f : Str) : ∀ st' i, getModule st f = (st', i) →
    J X fs st' ∧ Ext st st' ∧ (∃ m : Mod Out, st'[i]? = some m ∧ m.fname = f) ∧
    (∀ (k : Nat) (m : Mod Out), st'[k]? = some m → m.inp.isSome = true → st[k]? = some m) := by
  intro st' i h
  unfold getModule at h
  cases hf : st.findIdx? (fun m => decide (m.fname = f)) with
  | some k =>
    rw [hf] at h
    cases h
    refine ⟨hj, Ext.refl _, ?_, fun k m h _ => h⟩
    obtain ⟨hk, hp, _⟩ := List.findIdx?_eq_some_iff_getElem.1 hf
    exact ⟨st[i], List.getElem?_eq_getElem hk, by simpa using hp⟩
  | none =>
    rw [hf] at h
    cases h
    have hnf : ∀ m ∈ st, m.fname ≠ f := by
      have := List.findIdx?_eq_none_iff.1 hf
      intro m hm
      simpa using this m hm
    have he : Ext st (st ++ [blank f]) := by
      intro k m hk
      have hlt : k < st.length := by
        rcases Nat.lt_or_ge k st.length with h | h
        · exact h
        · rw [List.getElem?_eq_none h] at hk; cases hk
      exact ⟨m, by rw [List.getElem?_append_left hlt]; exact hk, rfl, fun _ => rfl⟩
    have hget : ∀ (k : Nat) (m : Mod Out), (st ++ [blank f])[k]? = some m → st[k]? = some m ∨ (k = st.length ∧ m = blank f) := by
      intro k m hk
      rcases Nat.lt_or_ge k st.length with h | h
      · rw [List.getElem?_append_left h] at hk; exact .inl hk
      · rw [List.getElem?_append_right h] at hk
        right
        cases hkk : k - st.length with
        | zero => rw [hkk] at hk; exact ⟨by omega, by simpa using hk.symm⟩
        | succ n => rw [hkk] at hk; simp at hk
    refine ⟨⟨?_, ?_, ?_, ?_, ?_⟩, he, ⟨blank f, by simp, rfl⟩, ?_⟩
    · rw [List.map_append, List.nodup_append]
      refine ⟨hj.nodup, by simp, ?_⟩
      intro a ha b hb
      simp only [List.map_cons, List.map_nil, List.mem_singleton] at hb
      subst hb
      obtain ⟨m, hm, rfl⟩ := List.mem_map.1 ha
      exact hnf m hm
    · obtain ⟨m, e, h1, h2⟩ := hj.prelude
      obtain ⟨m', e', _, k⟩ := he 0 m e
      have := k h2.1; subst this
      exact ⟨m', e', h1, h2⟩
    · intro k m hk hm ho
      rcases hget k m hm with h | ⟨_, rfl⟩
      · exact (hj.good k m hk h ho).ext hj he
      · exact absurd rfl ho
    · intro k m hk hm ho
      rcases hget k m hm with h | ⟨_, rfl⟩
      · exact hj.blank k m hk h ho
      · rfl
    · intro k m o hk hm ho
      rcases hget k m hm with h | ⟨_, rfl⟩
      · exact (hj.fresh k m o hk h ho).ext he hj.out_inp
      · cases ho
    · intro k m hm hi
      rcases hget k m hm with h | ⟨_, rfl⟩
      · exact h
      · cases hi

/-- Replacing a module without output and order by one with the same name keeps the invariant, if the new one is good. -/
theorem set_J {st : St Out} (hj : J X fs st) {i : Nat} {m m' : Mod Out} (hi : i ≠ 0) (hm : st[i]? = some m) (ho : m.order = 0)
    (hout : m.out = none) (hf : m'.fname = m.fname) (hout' : m'.out = none)
    (hg : m'.order ≠ 0 → Good X fs (st.set i m') m') : J X fs (st.set i m') := by
  have hlt : i < st.length := by
    rcases Nat.lt_or_ge i st.length with h | h
    · exact h
    · rw [List.getElem?_eq_none h] at hm; cases hm
  have hget : ∀ (k : Nat) (x : Mod Out), (st.set i m')[k]? = some x → (k = i ∧ x = m') ∨ (k ≠ i ∧ st[k]? = some x) := by
    intro k x h
    rw [List.getElem?_set] at h
    by_cases e : i = k
    · rw [if_pos e, if_pos hlt] at h; cases h; exact .inl ⟨e.symm, rfl⟩
    · rw [if_neg e] at h; exact .inr ⟨fun h => e h.symm, h⟩
  have hne : ∀ k : Nat, k ≠ i → (st.set i m')[k]? = st[k]? := by
    intro k hk
    rw [List.getElem?_set, if_neg (fun h => hk h.symm)]
  refine ⟨?_, ?_, ?_, ?_, ?_⟩
  · have : (st.set i m').map (·.fname) = st.map (·.fname) := by
      apply List.ext_getElem?
      intro k
      rw [List.getElem?_map, List.getElem?_map, List.getElem?_set]
      by_cases e : i = k
      · subst e
        rw [if_pos rfl, if_pos hlt, hm]; simp [hf]
      · rw [if_neg e]
    rw [this]; exact hj.nodup
  · obtain ⟨m0, e, h⟩ := hj.prelude
    exact ⟨m0, by rw [hne 0 (fun h => hi h.symm)]; exact e, h⟩
  · intro k x hk hx hxo
    rcases hget k x hx with ⟨rfl, rfl⟩ | ⟨hki, hx⟩
    · exact hg hxo
    · obtain ⟨imps, h1, h2, h3, h4⟩ := hj.good k x hk hx hxo
      refine ⟨imps, h1, h2, h3, fun p j hp => ?_⟩
      obtain ⟨y, e, a, b, c⟩ := h4 p j hp
      have : j ≠ i := by
        intro h; subst h
        rw [hm] at e; cases e; exact b ho
      exact ⟨y, by rw [hne j this]; exact e, a, b, c⟩
  · intro k x hk hx hxo
    rcases hget k x hx with ⟨rfl, rfl⟩ | ⟨_, hx⟩
    · exact hout'
    · exact hj.blank k x hk hx hxo
  · intro k x o hk hx hxo
    rcases hget k x hx with ⟨rfl, rfl⟩ | ⟨_, hx⟩
    · rw [hout'] at hxo; cases hxo
    · obtain ⟨imps, outs, h1, h2, h3⟩ := hj.fresh k x o hk hx hxo
      refine ⟨imps, outs, h1, ?_, h3⟩
      rw [← h2]
      apply List.map_congr_left
      intro p hp
      by_cases e : p.2 = i
      · exfalso
        have : (st[p.2]?).bind (·.out) ∈ outs.map some := by rw [← h2]; exact List.mem_map.2 ⟨p, hp, rfl⟩
        obtain ⟨o', _, ho'⟩ := List.mem_map.1 this
        rw [e, hm] at ho'
        simp [hout] at ho'
      · rw [hne _ e]

theorem set_Ext {st : St Out} {i : Nat} {m m' : Mod Out} (hm : st[i]? = some m) (hf : m'.fname = m.fname) (hn : m.inp = none) :
    Ext st (st.set i m') := by
  have hlt : i < st.length := by
    rcases Nat.lt_or_ge i st.length with h | h
    · exact h
    · rw [List.getElem?_eq_none h] at hm; cases hm
  intro k x hx
  by_cases e : i = k
  · subst e
    rw [hm] at hx; cases hx
    exact ⟨m', by rw [List.getElem?_set, if_pos rfl, if_pos hlt], hf, fun h => by rw [hn] at h; cases h⟩
  · exact ⟨x, by rw [List.getElem?_set, if_neg e]; exact hx, rfl, fun _ => rfl⟩

/-! ## The invariant of the discovery -/

theorem set_get {st : St Out} {i : Nat} {m m' : Mod Out} (hm : st[i]? = some m) :
    (st.set i m')[i]? = some m' ∧ ∀ (k : Nat) (x : Mod Out), (st.set i m')[k]? = some x → (k = i ∧ x = m') ∨ (k ≠ i ∧ st[k]? = some x) := by
  have hlt : i < st.length := by
    rcases Nat.lt_or_ge i st.length with h | h
    · exact h
    · rw [List.getElem?_eq_none h] at hm; cases hm
  refine ⟨by rw [List.getElem?_set, if_pos rfl, if_pos hlt], ?_⟩
  intro k x h
  rw [List.getElem?_set] at h
  by_cases e : i = k
  · rw [if_pos e, if_pos hlt] at h; cases h; exact .inl ⟨e.symm, rfl⟩
  · rw [if_neg e] at h; exact .inr ⟨fun h => e h.symm, h⟩

/-- The file is being read: it has input but no order yet. -/
def Busy (m : Mod Out) : Prop := m.inp.isSome = true ∧ m.order = 0

/-- What a call of `compile_lexParseDeps` guarantees. -/
def Spec (X : Front Out) (fs : Files) (rec : St Out → Str → St Out × Except Err (Nat × Nat)) : Prop :=
  ∀ st f st' r, J X fs st → rec st f = (st', r) → J X fs st' ∧ Ext st st' ∧
    (∀ (k : Nat) (m : Mod Out), st'[k]? = some m → st[k]? = some m ∨ Reach X fs f m.fname) ∧
    ∀ i d, r = .ok (i, d) → (d ≠ 0 ∧ ∃ m : Mod Out, st'[i]? = some m ∧ m.fname = f ∧ m.order = d) ∧
      ∀ (k : Nat) (m : Mod Out), st'[k]? = some m → Busy m → st[k]? = some m

theorem imports_spec (rec : St Out → Str → St Out × Except Err (Nat × Nat)) (hr : Spec X fs rec) (f : Str) (ps : List Str) :
    ∀ (st : St Out) (depth : Nat) (done : List (Str × Nat)) st' r, J X fs st →
    (∀ p ∈ ps, Imports X fs f (X.resolve fs f p)) →
    (∀ (p : Str) (j : Nat), (p, j) ∈ done →
      ∃ m' : Mod Out, st[j]? = some m' ∧ m'.fname = X.resolve fs f p ∧ m'.order ≠ 0 ∧ m'.order < depth) →
    imports X fs rec f ps st depth done = (st', r) → J X fs st' ∧ Ext st st' ∧
    (∀ (k : Nat) (m : Mod Out), st'[k]? = some m → st[k]? = some m ∨ Reach X fs f m.fname) ∧
    ∀ d done', r = .ok (d, done') → (depth ≤ d ∧ done'.map (·.1) = done.map (·.1) ++ ps ∧
      ∀ (p : Str) (j : Nat), (p, j) ∈ done' →
        ∃ m' : Mod Out, st'[j]? = some m' ∧ m'.fname = X.resolve fs f p ∧ m'.order ≠ 0 ∧ m'.order < d) ∧
      ∀ (k : Nat) (m : Mod Out), st'[k]? = some m → Busy m → st[k]? = some m := by
  induction ps with
  | nil =>
    intro st depth done st' r hj _ hd h
    rw [imports] at h
    cases h
    refine ⟨hj, Ext.refl _, fun _ _ h => .inl h, ?_⟩
    intro d done' e
    cases e
    exact ⟨⟨Nat.le_refl _, by simp, hd⟩, fun _ _ h _ => h⟩
  | cons p ps ih =>
    intro st depth done st' r hj hps hd h
    rw [imports] at h
    cases hc : rec st (X.resolve fs f p) with
    | mk st1 r1 =>
      rw [hc] at h
      obtain ⟨j1, e1, n1, k1⟩ := hr _ _ _ _ hj hc
      have n1 : ∀ (k : Nat) (m : Mod Out), st1[k]? = some m → st[k]? = some m ∨ Reach X fs f m.fname := by
        intro k m hk
        rcases n1 k m hk with h | h
        · exact .inl h
        · exact .inr (.step (hps p List.mem_cons_self) h)
      cases r1 with
      | error e =>
        cases h
        exact ⟨j1, e1, n1, fun _ _ h => by cases h⟩
      | ok v =>
        obtain ⟨modid, order⟩ := v
        dsimp only at h
        by_cases hz : modid = 0
        · rw [if_pos hz] at h
          cases h
          exact ⟨j1, e1, n1, fun _ _ h => by cases h⟩
        · rw [if_neg hz] at h
          obtain ⟨⟨hd0, m, em, fm, om⟩, b1⟩ := k1 modid order rfl
          have hd' : ∀ (q : Str) (j : Nat), (q, j) ∈ done ++ [(p, modid)] →
              ∃ m' : Mod Out, st1[j]? = some m' ∧ m'.fname = X.resolve fs f q ∧ m'.order ≠ 0 ∧
              m'.order < (if depth ≤ order then order + 1 else depth) := by
            intro q j hq
            rcases List.mem_append.1 hq with hq | hq
            · obtain ⟨m', e, a, b, c⟩ := hd q j hq
              obtain ⟨m'', e', _, k⟩ := e1 j m' e
              have := k (hj.order_inp e b).2; subst this
              refine ⟨m'', e', a, b, ?_⟩
              split <;> omega
            · have hq := List.mem_singleton.1 hq
              cases hq
              refine ⟨m, em, fm, by rw [om]; exact hd0, ?_⟩
              rw [om]; split <;> omega
          obtain ⟨j2, e2, n2, k2⟩ := ih st1 _ _ st' r j1 (fun q hq => hps q (List.mem_cons_of_mem _ hq)) hd' h
          refine ⟨j2, e1.trans e2, ?_, ?_⟩
          · intro k x hx
            rcases n2 k x hx with h | h
            · exact n1 k x h
            · exact .inr h
          intro d done' e
          obtain ⟨⟨h1, h2, h3⟩, b2⟩ := k2 d done' e
          refine ⟨⟨?_, by rw [h2]; simp, h3⟩, fun k x hx hb => b1 k x (b2 k x hx hb) hb⟩
          split at h1 <;> omega

theorem deps_spec (n : Nat) : Spec X fs (deps X fs n) := by
  induction n with
  | zero =>
    intro st f st' r hj h
    rw [deps] at h; cases h
    exact ⟨hj, Ext.refl _, fun _ _ h => .inl h, fun _ _ h => by cases h⟩
  | succ n ih =>
    intro st0 f st' r hj0 h
    rw [deps] at h
    cases hg : getModule st0 f with
    | mk st i =>
      rw [hg] at h
      obtain ⟨hj, he, ⟨m, hm, hf⟩, hold⟩ := getModule_spec st0 hj0 f st i hg
      have hnew : ∀ (k : Nat) (x : Mod Out), st[k]? = some x → st0[k]? = some x ∨ Reach X fs f x.fname := by
        intro k x hx
        unfold getModule at hg
        split at hg
        · cases hg; exact .inl hx
        · cases hg
          rcases Nat.lt_or_ge k st0.length with h | h
          · rw [List.getElem?_append_left h] at hx; exact .inl hx
          · rw [List.getElem?_append_right h] at hx
            cases hkk : k - st0.length with
            | zero =>
              rw [hkk] at hx
              have hx : blank f = x := by simpa using hx
              exact .inr (by rw [← hx]; exact .refl f)
            | succ n => rw [hkk] at hx; simp at hx
      dsimp only at h
      rw [hm] at h
      dsimp only at h
      cases hin : m.inp with
      | some x =>
        rw [hin] at h
        dsimp only at h
        split at h
        · rename_i ho
          cases h
          refine ⟨hj, he, hnew, ?_⟩
          intro i' d e
          cases e
          exact ⟨⟨ho, m, hm, hf, rfl⟩, fun k x hx hb => hold k x hx hb.1⟩
        · cases h
          exact ⟨hj, he, hnew, fun _ _ h => by cases h⟩
      | none =>
        rw [hin] at h
        dsimp only at h
        have hi0 : i ≠ 0 := by
          intro e; subst e
          obtain ⟨m0, e0, _, h0, _⟩ := hj.prelude
          rw [hm] at e0; cases e0; rw [hin] at h0; cases h0
        have ho0 : m.order = 0 := by
          rcases Nat.eq_zero_or_pos m.order with h | h
          · exact h
          · have := (hj.good i m hi0 hm (by omega)).inp
            rw [hin] at this; cases this
        have hout : m.out = none := hj.blank i m hi0 hm ho0
        split at h
        · cases h; exact ⟨hj, he, hnew, fun _ _ h => by cases h⟩
        · split at h
          · cases h; exact ⟨hj, he, hnew, fun _ _ h => by cases h⟩
          · rename_i hne
            cases hp : X.parse f (fs f) with
            | error e =>
              rw [hp] at h
              cases h; exact ⟨hj, he, hnew, fun _ _ h => by cases h⟩
            | ok pats =>
              rw [hp] at h
              dsimp only at h
              rw [if_neg (by simp [ho0])] at h
              generalize hm1 : ({ m with inp := some (fs f, pats.map fun p => (p, 0)) } : Mod Out) = m1 at h
              have hm1f : m1.fname = m.fname := by rw [← hm1]
              have hm1o : m1.order = 0 := by rw [← hm1]; exact ho0
              have hm1out : m1.out = none := by rw [← hm1]; exact hout
              have hm1i : m1.inp.isSome = true := by rw [← hm1]; rfl
              have hj1 : J X fs (st.set i m1) := set_J hj hi0 hm ho0 hout hm1f hm1out (fun h => absurd hm1o h)
              have he1 : Ext st (st.set i m1) := set_Ext hm hm1f hin
              have hset1 := set_get (m' := m1) hm
              cases hc : imports X fs (deps X fs n) f pats (st.set i m1) 1 [] with
              | mk st2 r2 =>
                rw [hc] at h
                obtain ⟨hj2, he2, hn2, k2⟩ := imports_spec (deps X fs n) ih f pats _ _ _ _ _ hj1
                  (fun p hpp => ⟨hne, pats, hp, p, hpp, rfl⟩) (by simp) hc
                have hnew2 : ∀ (k : Nat) (x : Mod Out), st2[k]? = some x → st0[k]? = some x ∨ Reach X fs f x.fname := by
                  intro k x hx
                  rcases hn2 k x hx with h | h
                  · rcases hset1.2 k x h with ⟨_, rfl⟩ | ⟨_, h⟩
                    · exact .inr (by rw [hm1f, hf]; exact .refl f)
                    · exact hnew k x h
                  · exact .inr h
                cases r2 with
                | error e =>
                  cases h
                  exact ⟨hj2, he.trans (he1.trans he2), hnew2, fun _ _ h => by cases h⟩
                | ok v =>
                  obtain ⟨d, done⟩ := v
                  dsimp only at h
                  obtain ⟨⟨hd, hdone, himp⟩, hb2⟩ := k2 d done rfl
                  have hm2 : st2[i]? = some m1 := by
                    obtain ⟨m', e', _, k⟩ := he2 i m1 hset1.1
                    have := k hm1i; subst this; exact e'
                  generalize hm3 : ({ m with inp := some (fs f, done), order := d } : Mod Out) = m3 at h
                  have e3f : m3.fname = f := by rw [← hm3]; exact hf
                  have e3o : m3.order = d := by rw [← hm3]
                  have hset3 := set_get (m' := m3) hm2
                  have hg3 : Good X fs (st2.set i m3) m3 := by
                    refine ⟨done, by rw [e3f]; exact hne, by rw [e3f, hp, hdone]; rfl, by rw [e3f, ← hm3], ?_⟩
                    intro p j hpj
                    obtain ⟨m', e', a, b, c⟩ := himp p j hpj
                    have : j ≠ i := by
                      intro h; subst h; rw [hm2] at e'; cases e'; exact b hm1o
                    refine ⟨m', by rw [List.getElem?_set, if_neg (fun h => this h.symm)]; exact e', by rw [e3f]; exact a, b, ?_⟩
                    rw [← hm3]; exact c
                  have hj3 : J X fs (st2.set i m3) :=
                    set_J hj2 hi0 hm2 hm1o hm1out (by rw [e3f]; exact (hm1f.trans hf).symm) (by rw [← hm3]; exact hout) (fun _ => hg3)
                  cases h
                  refine ⟨hj3, ?_, ?_, ?_⟩
                  · -- everything that had input is unchanged
                    intro k x hx
                    obtain ⟨x1, a1, b1, c1⟩ := he k x hx
                    by_cases e : i = k
                    · subst e
                      rw [hm] at a1; cases a1
                      refine ⟨m3, hset3.1, by rw [e3f, ← hf, b1], fun h => ?_⟩
                      have := c1 h; subst this
                      rw [hin] at h; cases h
                    · obtain ⟨x2, a2, b2, c2⟩ := (he1.trans he2) k x1 a1
                      refine ⟨x2, by rw [List.getElem?_set, if_neg e]; exact a2, b2.trans b1, fun h => ?_⟩
                      have := c1 h; subst this
                      exact c2 h
                  · intro k x hx
                    rcases hset3.2 k x hx with ⟨_, rfl⟩ | ⟨_, h⟩
                    · exact .inr (by rw [e3f]; exact .refl f)
                    · exact hnew2 k x h
                  · intro i' d' e
                    cases e
                    refine ⟨⟨by omega, m3, hset3.1, e3f, e3o⟩, ?_⟩
                    intro k x hx hb
                    rcases hset3.2 k x hx with ⟨_, rfl⟩ | ⟨hki, h⟩
                    · have := hb.2; omega
                    · rcases hset1.2 k x (hb2 k x h hb) with ⟨h, _⟩ | ⟨_, h⟩
                      · exact absurd h hki
                      · exact hold k x h hb.1

/-! ## The discovery ends -/

/-- The files that have not been read yet. -/
def unread (files : List Str) (st : St Out) : Nat :=
  files.countP fun g => decide (¬ ∃ m ∈ st, m.fname = g ∧ m.inp.isSome = true)

theorem unread_ext (files : List Str) {st st' : St Out} (h : Ext st st') : unread files st' ≤ unread files st := by
  unfold unread
  apply List.countP_mono_left
  intro g _ hg
  have hg := of_decide_eq_true hg
  refine decide_eq_true fun ⟨m, hm, hf, hi⟩ => hg ?_
  obtain ⟨k, hk⟩ := List.mem_iff_getElem?.1 hm
  obtain ⟨m', e', f', k'⟩ := h k m hk
  have := k' hi; subst this
  exact ⟨m', List.mem_iff_getElem?.2 ⟨k, e'⟩, hf, hi⟩

theorem countP_lt {α : Type} {p q : α → Bool} {l : List α} (h : ∀ x ∈ l, p x = true → q x = true) {a : α} (ha : a ∈ l)
    (hq : q a = true) (hp : p a = false) : l.countP p < l.countP q := by
  induction l with
  | nil => cases ha
  | cons b l ih =>
    have hmono : l.countP p ≤ l.countP q := List.countP_mono_left fun x hx => h x (List.mem_cons_of_mem _ hx)
    rw [List.countP_cons, List.countP_cons]
    rcases List.mem_cons.1 ha with rfl | ha
    · rw [if_pos hq, if_neg (by simp [hp])]; omega
    · have := ih (fun x hx => h x (List.mem_cons_of_mem _ hx)) ha
      have hb := h b List.mem_cons_self
      by_cases hpb : p b = true
      · rw [if_pos hpb, if_pos (hb hpb)]; omega
      · rw [if_neg hpb]; split <;> omega

theorem imports_nofuel (files : List Str) (rec : St Out → Str → St Out × Except Err (Nat × Nat)) (hr : Spec X fs rec) (n : Nat)
    (hf : ∀ (st : St Out) (f : Str) st' e, J X fs st → unread files st < n → rec st f = (st', .error e) → e ≠ .fuel) (f : Str) (ps : List Str) :
    ∀ (st : St Out) (depth : Nat) (done : List (Str × Nat)) st' e, J X fs st → unread files st < n →
    imports X fs rec f ps st depth done = (st', .error e) → e ≠ .fuel := by
  induction ps with
  | nil => intro st depth done st' e _ _ h; rw [imports] at h; cases h
  | cons p ps ih =>
    intro st depth done st' e hj hn h
    rw [imports] at h
    cases hc : rec st (X.resolve fs f p) with
    | mk st1 r1 =>
      rw [hc] at h
      obtain ⟨j1, e1, _, _⟩ := hr _ _ _ _ hj hc
      cases r1 with
      | error e' =>
        cases h
        exact hf _ _ _ _ hj hn hc
      | ok v =>
        obtain ⟨modid, order⟩ := v
        dsimp only at h
        by_cases hz : modid = 0
        · rw [if_pos hz] at h; cases h; exact fun h => by cases h
        · rw [if_neg hz] at h
          exact ih _ _ _ _ _ j1 (Nat.lt_of_le_of_lt (unread_ext files e1) hn) h

/-- The recursion is no deeper than the number of files that exist: a circle of imports is noticed. -/
theorem deps_nofuel (files : List Str) (hfiles : ∀ f, fs f ≠ [] → f ∈ files) (n : Nat) :
    ∀ (st : St Out) (f : Str) st' e, J X fs st → unread files st < n → deps X fs n st f = (st', .error e) → e ≠ .fuel := by
  induction n with
  | zero => intro st f st' e _ h; omega
  | succ n ih =>
    intro st0 f st' e hj0 hn h
    rw [deps] at h
    cases hg : getModule st0 f with
    | mk st i =>
      rw [hg] at h
      obtain ⟨hj, he, ⟨m, hm, hf⟩, hold⟩ := getModule_spec st0 hj0 f st i hg
      dsimp only at h
      rw [hm] at h
      dsimp only at h
      cases hin : m.inp with
      | some x =>
        rw [hin] at h
        dsimp only at h
        split at h <;> cases h
        exact fun h => by cases h
      | none =>
        rw [hin] at h
        dsimp only at h
        have hi0 : i ≠ 0 := by
          intro e; subst e
          obtain ⟨m0, e0, _, h0, _⟩ := hj.prelude
          rw [hm] at e0; cases e0; rw [hin] at h0; cases h0
        have ho0 : m.order = 0 := by
          rcases Nat.eq_zero_or_pos m.order with h | h
          · exact h
          · have := (hj.good i m hi0 hm (by omega)).inp
            rw [hin] at this; cases this
        have hout : m.out = none := hj.blank i m hi0 hm ho0
        split at h
        · cases h; exact fun h => by cases h
        · split at h
          · cases h; exact fun h => by cases h
          · rename_i hne
            cases hp : X.parse f (fs f) with
            | error e' =>
              rw [hp] at h
              cases h; exact fun h => by cases h
            | ok pats =>
              rw [hp] at h
              dsimp only at h
              rw [if_neg (by simp [ho0])] at h
              generalize hm1 : ({ m with inp := some (fs f, pats.map fun p => (p, 0)) } : Mod Out) = m1 at h
              have hm1f : m1.fname = m.fname := by rw [← hm1]
              have hm1o : m1.order = 0 := by rw [← hm1]; exact ho0
              have hm1out : m1.out = none := by rw [← hm1]; exact hout
              have hm1i : m1.inp.isSome = true := by rw [← hm1]; rfl
              have hj1 : J X fs (st.set i m1) := set_J hj hi0 hm ho0 hout hm1f hm1out (fun h => absurd hm1o h)
              have he1 : Ext st (st.set i m1) := set_Ext hm hm1f hin
              have hset1 := set_get (m' := m1) hm
              have hlt : unread files (st.set i m1) < n := by
                have h1 := unread_ext files he
                have h2 : unread files (st.set i m1) < unread files st := by
                  unfold unread
                  refine countP_lt (a := f) ?_ (hfiles f hne) ?_ ?_
                  · intro g _ hg
                    have hg := of_decide_eq_true hg
                    refine decide_eq_true fun ⟨x, hx, hxf, hi⟩ => hg ?_
                    obtain ⟨k, hk⟩ := List.mem_iff_getElem?.1 hx
                    obtain ⟨m', e', f', k'⟩ := he1 k x hk
                    have := k' hi; subst this
                    exact ⟨m', List.mem_iff_getElem?.2 ⟨k, e'⟩, hxf, hi⟩
                  · refine decide_eq_true fun ⟨x, hx, hxf, hi⟩ => ?_
                    obtain ⟨k, hk⟩ := List.mem_iff_getElem?.1 hx
                    have hnd := hj.nodup
                    have : k = i := by
                      have a1 : (st.map (·.fname))[k]? = some f := by rw [List.getElem?_map, hk]; simp [hxf]
                      have a2 : (st.map (·.fname))[i]? = some f := by rw [List.getElem?_map, hm]; simp [hf]
                      have hk : k < (st.map (·.fname)).length := by
                        rcases Nat.lt_or_ge k (st.map (·.fname)).length with h | h
                        · exact h
                        · rw [List.getElem?_eq_none h] at a1; cases a1
                      exact (List.getElem?_inj hk hnd).1 (a1.trans a2.symm)
                    subst this
                    rw [hm] at hk; cases hk
                    rw [hin] at hi; cases hi
                  · refine decide_eq_false fun h => h ⟨m1, ?_, hm1f.trans hf, hm1i⟩
                    exact List.mem_iff_getElem?.2 ⟨i, hset1.1⟩
                omega
              cases hc : imports X fs (deps X fs n) f pats (st.set i m1) 1 [] with
              | mk st2 r2 =>
                rw [hc] at h
                cases r2 with
                | error e' =>
                  cases h
                  exact imports_nofuel files (deps X fs n) (deps_spec n) n ih f pats _ _ _ _ _ hj1 hlt hc
                | ok v =>
                  obtain ⟨d, done⟩ := v
                  dsimp only at h
                  cases h

end Verif.Compile
