import Verif.CompileMain
/-!
# Watch mode: rebuilding after edits: C78
-/
namespace Verif.Compile
open Verif

variable {Out : Type} {X : Front Out} {fs : Files}

/-- What holds of the module list at any time in watch mode: a module with an output was made from the file as it is on disk,
and each of its imports either has the output that was used or has none. -/
structure W (X : Front Out) (fs : Files) (st : St Out) : Prop where
  nodup : (st.map (·.fname)).Nodup
  prelude : ∃ m : Mod Out, st[0]? = some m ∧ m.order = 0 ∧ m.inp.isSome = true ∧ m.out.isSome = true
  made : ∀ (i : Nat) (m : Mod Out) (o : Out), i ≠ 0 → st[i]? = some m → m.out = some o → ∃ imps outs,
    fs m.fname ≠ [] ∧ X.parse m.fname (fs m.fname) = .ok (imps.map (·.1)) ∧ m.inp = some (fs m.fname, imps) ∧ m.order ≠ 0 ∧
    outs.length = imps.length ∧ X.solve m.fname (fs m.fname) outs = .ok o ∧
    ∀ (k : Nat) (p : Str × Nat) (u : Out), imps[k]? = some p → outs[k]? = some u →
      ∃ m' : Mod Out, st[p.2]? = some m' ∧ m'.fname = X.resolve fs m.fname p.1 ∧
      (m'.out = none ∨ (m'.order ≠ 0 ∧ m'.order < m.order ∧ m'.out = some u))

theorem J.weak {st : St Out} (hj : J X fs st) : W X fs st := by
  refine ⟨hj.nodup, hj.prelude, ?_⟩
  intro i m o hi hm ho
  have hne : m.order ≠ 0 := fun h => by rw [hj.blank i m hi hm h] at ho; cases ho
  obtain ⟨imps, h1, h2, h3, h4⟩ := hj.good i m hi hm hne
  obtain ⟨imps', outs, h1', h2', h3'⟩ := hj.fresh i m o hi hm ho
  rw [h3] at h1'; cases h1'
  have hlen : outs.length = imps.length := by
    have := congrArg List.length h2'; simp at this; exact this.symm
  refine ⟨imps, outs, h1, h2, h3, hne, hlen, h3', ?_⟩
  intro k p u hp hu
  obtain ⟨m', e', a, b, c⟩ := h4 p.1 p.2 (List.mem_iff_getElem?.2 ⟨k, hp⟩)
  refine ⟨m', e', a, .inr ⟨b, c, ?_⟩⟩
  have := congrArg (fun l => l[k]?) h2'
  simp only [List.getElem?_map, hp, hu, Option.map_some] at this
  rw [e'] at this
  exact Option.some.inj this

/-- Some modules were cleared. -/
def Cleared (st st' : St Out) : Prop :=
  st'.length = st.length ∧ ∀ (i : Nat) (m : Mod Out), st[i]? = some m → st'[i]? = some m ∨ (i ≠ 0 ∧ st'[i]? = some (blank m.fname))

theorem Cleared.refl (st : St Out) : Cleared st st := ⟨rfl, fun _ _ h => .inl h⟩

theorem Cleared.trans {a b c : St Out} (h1 : Cleared a b) (h2 : Cleared b c) : Cleared a c := by
  refine ⟨h2.1.trans h1.1, fun i m h => ?_⟩
  rcases h1.2 i m h with h | ⟨hi, h⟩
  · exact h2.2 i m h
  · rcases h2.2 i _ h with h | ⟨_, h⟩
    · exact .inr ⟨hi, h⟩
    · exact .inr ⟨hi, h⟩

theorem Cleared.back {st st' : St Out} (h : Cleared st st') {i : Nat} {m' : Mod Out} (hm : st'[i]? = some m') :
    ∃ m, st[i]? = some m ∧ (m' = m ∨ (i ≠ 0 ∧ m' = blank m.fname)) := by
  have hlt := lt_of_get hm
  rw [h.1] at hlt
  refine ⟨st[i], List.getElem?_eq_getElem hlt, ?_⟩
  rcases h.2 i st[i] (List.getElem?_eq_getElem hlt) with e | ⟨hi, e⟩
  · rw [hm] at e; exact .inl (Option.some.inj e)
  · rw [hm] at e; exact .inr ⟨hi, Option.some.inj e⟩

/-- The imports of a file that did not change still stand for the same files. -/
def Stable (X : Front Out) (old new : Files) : Prop :=
  ∀ f pats p, old f = new f → new f ≠ [] → X.parse f (new f) = .ok pats → p ∈ pats → X.resolve new f p = X.resolve old f p

theorem clear_W {old new : Files} (hst : Stable X old new) {st st' : St Out} (h : W X old st) (hc : Cleared st st')
    (hsame : ∀ (i : Nat) (m : Mod Out), i ≠ 0 → st'[i]? = some m → m.out.isSome = true → old m.fname = new m.fname) : W X new st' := by
  refine ⟨?_, ?_, ?_⟩
  · have : st'.map (·.fname) = st.map (·.fname) := by
      apply List.ext_getElem?
      intro k
      rw [List.getElem?_map, List.getElem?_map]
      cases hk : st[k]? with
      | none =>
        rw [List.getElem?_eq_none_iff] at hk
        rw [List.getElem?_eq_none (by rw [hc.1]; exact hk)]
      | some m => rcases hc.2 k m hk with e | ⟨_, e⟩ <;> rw [e] <;> rfl
    rw [this]; exact h.nodup
  · obtain ⟨m, e, h1⟩ := h.prelude
    rcases hc.2 0 m e with e' | ⟨h0, _⟩
    · exact ⟨m, e', h1⟩
    · exact absurd rfl h0
  · intro i m' o hi hm' ho
    obtain ⟨m, hm, e⟩ := hc.back hm'
    rcases e with rfl | ⟨_, rfl⟩
    · have hs := hsame i m' hi hm' (by rw [ho]; rfl)
      obtain ⟨imps, outs, h1, h2, h3, h4, h5, h6, h7⟩ := h.made i m' o hi hm ho
      rw [hs] at h1 h2 h3 h6
      refine ⟨imps, outs, h1, h2, h3, h4, h5, h6, ?_⟩
      intro k p u hp hu
      obtain ⟨x, ex, fx, hx⟩ := h7 k p u hp hu
      have hres : X.resolve new m'.fname p.1 = X.resolve old m'.fname p.1 :=
        hst _ _ _ hs h1 h2 (List.mem_map.2 ⟨p, List.mem_iff_getElem?.2 ⟨k, hp⟩, rfl⟩)
      rcases hc.2 p.2 x ex with e | ⟨_, e⟩
      · exact ⟨x, e, by rw [fx, hres], hx⟩
      · exact ⟨_, e, by rw [hres, ← fx]; rfl, .inl rfl⟩
    · cases ho

theorem stable_refl (X : Front Out) (fs : Files) : Stable X fs fs := fun _ _ _ _ _ _ _ => rfl

theorem changed_cleared (old new : Files) (st : St Out) : Cleared st (changed old new st) := by
  refine ⟨by simp [changed], fun i m hm => ?_⟩
  unfold changed
  rw [List.getElem?_mapIdx, hm]
  by_cases h : i ≠ 0 ∧ old m.fname ≠ new m.fname
  · right; exact ⟨h.1, by simp [h]⟩
  · left; simp only [Option.map_some, if_neg h]

/-- After an edit. -/
theorem changed_W {old new : Files} (hst : Stable X old new) {st : St Out} (h : W X old st) : W X new (changed old new st) := by
  refine clear_W hst h (changed_cleared old new st) ?_
  intro i m hi hm ho
  unfold changed at hm
  rw [List.getElem?_mapIdx] at hm
  cases hx : st[i]? with
  | none => rw [hx] at hm; cases hm
  | some x =>
    rw [hx] at hm
    have hm := Option.some.inj hm
    dsimp only at hm
    by_cases hc : i ≠ 0 ∧ old x.fname ≠ new x.fname
    · rw [if_pos hc] at hm; subst hm; cases ho
    · rw [if_neg hc] at hm
      subst hm
      rcases Decidable.em (old x.fname = new x.fname) with h | h
      · exact h
      · exact absurd ⟨hi, h⟩ hc

/-! ## Pruning -/

theorem unfinished_mem (st : St Out) : ∀ (i j : Nat),
    j ∈ unfinished st i ↔ ∃ (k : Nat) (m : Mod Out), st[k]? = some m ∧ m.out = none ∧ j = i + k ∧ j ≠ 0 := by
  induction st with
  | nil => intro i j; simp [unfinished]
  | cons m st ih =>
    intro i j
    rw [unfinished]
    have hrec : j ∈ unfinished st (i + 1) ↔ ∃ (k : Nat) (x : Mod Out), (m :: st)[k + 1]? = some x ∧ x.out = none ∧ j = i + (k + 1) ∧ j ≠ 0 := by
      rw [ih]
      constructor
      · rintro ⟨k, x, a, b, c, d⟩; exact ⟨k, x, a, b, by omega, d⟩
      · rintro ⟨k, x, a, b, c, d⟩; exact ⟨k, x, a, b, by omega, d⟩
    have hsplit : (∃ (k : Nat) (x : Mod Out), (m :: st)[k]? = some x ∧ x.out = none ∧ j = i + k ∧ j ≠ 0) ↔
        ((m.out = none ∧ j = i ∧ j ≠ 0) ∨ ∃ (k : Nat) (x : Mod Out), (m :: st)[k + 1]? = some x ∧ x.out = none ∧ j = i + (k + 1) ∧ j ≠ 0) := by
      constructor
      · rintro ⟨k, x, a, b, c, d⟩
        cases k with
        | zero =>
          have a : m = x := by simpa using a
          subst a
          exact .inl ⟨b, by omega, d⟩
        | succ k => exact .inr ⟨k, x, a, b, c, d⟩
      · rintro (⟨b, c, d⟩ | ⟨k, x, h⟩)
        · exact ⟨0, m, rfl, b, by omega, d⟩
        · exact ⟨k + 1, x, h⟩
    rw [hsplit, ← hrec]
    by_cases hc : i ≠ 0 ∧ m.out.isNone = true
    · rw [if_pos hc]
      simp only [List.mem_cons]
      constructor
      · rintro (h | h)
        · exact .inl ⟨by simpa using hc.2, h, by rw [h]; exact hc.1⟩
        · exact .inr h
      · rintro (⟨_, h, _⟩ | h)
        · exact .inl h
        · exact .inr h
    · rw [if_neg hc]
      constructor
      · exact .inr
      · rintro (⟨a, b, c⟩ | h)
        · exact absurd ⟨by rw [← b]; exact c, by simp [a]⟩ hc
        · exact h

/-- The modules without output are exactly the invalid ones, and they are blank. -/
structure Inv (st : St Out) (invalid : List Nat) : Prop where
  sound : ∀ j ∈ invalid, j ≠ 0 ∧ ∃ m : Mod Out, st[j]? = some m ∧ m = blank m.fname
  complete : ∀ (i : Nat) (m : Mod Out), i ≠ 0 → st[i]? = some m → m.out = none → i ∈ invalid

/-- A module leads to another by its imports. -/
inductive Leads (st : St Out) : Nat → Nat → Prop
  | refl (i) : Leads st i i
  | step {i j k : Nat} {m : Mod Out} {src : Str} {imps : List (Str × Nat)} {p : Str} : st[i]? = some m → m.inp = some (src, imps) →
      (p, j) ∈ imps → Leads st j k → Leads st i k

def hasInp (st : St Out) : Nat := st.countP fun m => m.inp.isSome

theorem countP_set_lt {st : St Out} {i : Nat} {m m' : Mod Out} (hm : st[i]? = some m) (h1 : m.inp.isSome = true) (h2 : m'.inp = none) :
    hasInp (st.set i m') < hasInp st := by
  unfold hasInp
  induction st generalizing i with
  | nil => cases hm
  | cons a st ih =>
    cases i with
    | zero =>
      have : a = m := by simpa using hm
      subst this
      rw [List.set_cons_zero, List.countP_cons, List.countP_cons, if_pos h1, if_neg (by rw [h2]; simp)]
      omega
    | succ i =>
      have := ih (i := i) (by simpa using hm)
      rw [List.set_cons_succ, List.countP_cons, List.countP_cons]
      omega

theorem spread_spec (n : Nat) : ∀ (i : Nat) (st : St Out) (invalid : List Nat) (rep : Bool) (st' : St Out) (invalid' : List Nat) (rep' : Bool),
    i ≠ 0 → Inv st invalid → spread n i st invalid rep = (st', invalid', rep') →
    Cleared st st' ∧ Inv st' invalid' ∧ (rep = true → rep' = true) ∧
    (rep' = false → st' = st ∧ invalid' = invalid ∧
      ∀ (k : Nat) (m : Mod Out), i ≤ k → k < i + n → st[k]? = some m → ∀ p ∈ (m.inp.map (·.2)).getD [], p.2 ∉ invalid) ∧
    (rep = false → rep' = true → hasInp st' < hasInp st) ∧ hasInp st' ≤ hasInp st ∧
    (∀ j ∈ invalid', ∃ k ∈ invalid, Leads st j k) := by
  induction n with
  | zero =>
    intro i st invalid rep st' invalid' rep' hi hv h
    rw [spread] at h; cases h
    exact ⟨Cleared.refl _, hv, fun h => h, fun _ => ⟨rfl, rfl, fun k m h1 h2 => (by omega)⟩,
      fun h1 h2 => (by rw [h1] at h2; cases h2), Nat.le_refl _, fun j hj => ⟨j, hj, .refl j⟩⟩
  | succ n ih =>
    intro i st invalid rep st' invalid' rep' hi hv h
    rw [spread] at h
    cases hm : st[i]? with
    | none =>
      rw [hm] at h; cases h
      refine ⟨Cleared.refl _, hv, fun h => h, fun _ => ⟨rfl, rfl, fun k m h1 h2 hk => ?_⟩,
        fun h1 h2 => (by rw [h1] at h2; cases h2), Nat.le_refl _, fun j hj => ⟨j, hj, .refl j⟩⟩
      have := lt_of_get hk
      rw [List.getElem?_eq_none_iff] at hm
      omega
    | some m =>
      rw [hm] at h
      dsimp only at h
      by_cases hany : ((m.inp.map (·.2)).getD []).any (fun p => decide (p.2 ∈ invalid)) = true
      · rw [if_pos hany] at h
        obtain ⟨p, hp, hpi⟩ := List.any_eq_true.1 hany
        have hpi : p.2 ∈ invalid := by simpa using hpi
        have hinp : m.inp.isSome = true := by
          cases h : m.inp with
          | none => rw [h] at hp; cases hp
          | some _ => rfl
        have hset := set_get (m' := blank m.fname) hm
        have hcl : Cleared st (st.set i (blank m.fname)) := by
          refine ⟨by simp, fun k x hx => ?_⟩
          by_cases e : k = i
          · subst e
            rw [hm] at hx; cases hx
            exact .inr ⟨hi, hset.1⟩
          · exact .inl (by rw [List.getElem?_set, if_neg (fun h => e h.symm)]; exact hx)
        have hv1 : Inv (st.set i (blank m.fname)) (i :: invalid) := by
          constructor
          · intro j hj
            rcases List.mem_cons.1 hj with rfl | hj
            · exact ⟨hi, _, hset.1, rfl⟩
            · obtain ⟨h0, x, hx, ex⟩ := hv.sound j hj
              refine ⟨h0, ?_⟩
              rcases hcl.2 j x hx with e | ⟨_, e⟩
              · exact ⟨x, e, ex⟩
              · exact ⟨_, e, rfl⟩
          · intro k x hk hx ho
            rcases hset.2 k x hx with ⟨rfl, _⟩ | ⟨_, hx⟩
            · exact List.mem_cons_self
            · exact List.mem_cons_of_mem _ (hv.complete k x hk hx ho)
        have hdec := countP_set_lt (m' := blank m.fname) hm hinp rfl
        obtain ⟨a, b, c, d, e, f, g⟩ := ih (i + 1) _ _ true st' invalid' rep' (by omega) hv1 h
        refine ⟨hcl.trans a, b, fun _ => c rfl, fun h => ?_, fun _ _ => Nat.lt_of_le_of_lt f hdec, by omega, ?_⟩
        · rw [c rfl] at h; cases h
        · have hlift : ∀ j k, Leads (st.set i (blank m.fname)) j k → Leads st j k := by
            intro j k hl
            induction hl with
            | refl => exact .refl _
            | step h1 h2 h3 _ ih =>
              rcases hset.2 _ _ h1 with ⟨_, rfl⟩ | ⟨_, h1⟩
              · cases h2
              · exact .step h1 h2 h3 ih
          intro j hj
          obtain ⟨k, hk, hl⟩ := g j hj
          rcases List.mem_cons.1 hk with rfl | hk
          · refine ⟨p.2, hpi, ?_⟩
            have htr : ∀ a b, Leads st a b → ∀ c, Leads st b c → Leads st a c := by
              intro a b hab
              induction hab with
              | refl => intro c hc; exact hc
              | step h1 h2 h3 _ ih => intro c hc; exact .step h1 h2 h3 (ih c hc)
            refine htr _ _ (hlift _ _ hl) _ ?_
            cases hin : m.inp with
            | none => rw [hin] at hinp; cases hinp
            | some v =>
              rw [hin] at hp
              exact .step (p := p.1) hm hin hp (.refl _)
          · exact ⟨k, hk, hlift _ _ hl⟩
      · rw [if_neg hany] at h
        obtain ⟨a, b, c, d, e, f, g⟩ := ih (i + 1) _ _ rep st' invalid' rep' (by omega) hv h
        refine ⟨a, b, c, fun h => ?_, e, f, g⟩
        obtain ⟨d1, d2, d3⟩ := d h
        refine ⟨d1, d2, fun k x h1 h2 hk p hp => ?_⟩
        by_cases hki : k = i
        · subst hki
          rw [hm] at hk; cases hk
          intro hpi
          exact hany (List.any_eq_true.2 ⟨p, hp, by simpa using hpi⟩)
        · exact d3 k x (by omega) (by omega) hk p hp

theorem leads_cleared {st st' : St Out} (h : Cleared st st') {j k : Nat} (hl : Leads st' j k) : Leads st j k := by
  induction hl with
  | refl => exact .refl _
  | step h1 h2 h3 _ ih =>
    obtain ⟨m, hm, e⟩ := h.back h1
    rcases e with rfl | ⟨_, rfl⟩
    · exact .step hm h2 h3 ih
    · cases h2

theorem Leads.trans {st : St Out} {a b c : Nat} (hab : Leads st a b) (hbc : Leads st b c) : Leads st a c := by
  induction hab with
  | refl => exact hbc
  | step h1 h2 h3 _ ih => exact .step h1 h2 h3 (ih hbc)

theorem rounds_spec (n : Nat) : ∀ (st : St Out) (invalid : List Nat), hasInp st < n → Inv st invalid →
    ∃ st', rounds n st invalid = some st' ∧ Cleared st st' ∧ ∃ invalid', Inv st' invalid' ∧
      (∀ (k : Nat) (m : Mod Out), k ≠ 0 → st'[k]? = some m → ∀ p ∈ (m.inp.map (·.2)).getD [], p.2 ∉ invalid') ∧
      (∀ j ∈ invalid', ∃ k ∈ invalid, Leads st j k) := by
  induction n with
  | zero => intro st invalid h; omega
  | succ n ih =>
    intro st invalid hn hv
    rw [rounds]
    cases hs : spread (st.length - 1) 1 st invalid false with
    | mk st1 r =>
      obtain ⟨inv1, rep⟩ := r
      dsimp only
      obtain ⟨a, b, _, d, e, f, g⟩ := spread_spec _ 1 st invalid false st1 inv1 rep (by omega) hv hs
      cases rep with
      | true =>
        rw [if_pos rfl]
        obtain ⟨st', h1, h2, inv', h3, h4, h5⟩ := ih st1 inv1 (by have := e rfl rfl; omega) b
        refine ⟨st', h1, a.trans h2, inv', h3, h4, ?_⟩
        intro j hj
        obtain ⟨k, hk, hl⟩ := h5 j hj
        obtain ⟨k', hk', hl'⟩ := g k hk
        exact ⟨k', hk', (leads_cleared a hl).trans hl'⟩
      | false =>
        rw [if_neg (by simp)]
        obtain ⟨d1, d2, d3⟩ := d rfl
        refine ⟨st1, rfl, a, inv1, b, ?_, g⟩
        intro k m hk hm
        rw [d1] at hm
        rw [d2]
        exact d3 k m (by omega) (by have := lt_of_get hm; omega) hm

theorem clearUnfinished_cleared (st : St Out) : Cleared st (clearUnfinished st) := by
  refine ⟨by simp [clearUnfinished], fun i m hm => ?_⟩
  unfold clearUnfinished
  rw [List.getElem?_mapIdx, hm]
  by_cases h : i ≠ 0 ∧ m.out.isNone = true
  · right; exact ⟨h.1, by simp only [Option.map_some, if_pos h]⟩
  · left; simp only [Option.map_some, if_neg h]

theorem clearUnfinished_inv (st : St Out) : Inv (clearUnfinished st) (unfinished st 0) := by
  constructor
  · intro j hj
    obtain ⟨k, m, h1, h2, h3, h4⟩ := (unfinished_mem st 0 j).1 hj
    rw [Nat.zero_add] at h3; subst h3
    refine ⟨h4, blank m.fname, ?_, rfl⟩
    unfold clearUnfinished
    rw [List.getElem?_mapIdx, h1]
    simp [h4, h2]
  · intro i m hi hm ho
    rw [unfinished_mem]
    unfold clearUnfinished at hm
    rw [List.getElem?_mapIdx] at hm
    cases hx : st[i]? with
    | none => rw [hx] at hm; cases hm
    | some x =>
      rw [hx] at hm
      have hm := Option.some.inj hm
      dsimp only at hm
      refine ⟨i, x, hx, ?_, by omega, hi⟩
      by_cases hc : i ≠ 0 ∧ x.out.isNone = true
      · simpa using hc.2
      · rw [if_neg hc] at hm; subst hm; exact ho

/-- Pruning ends.  Afterwards every module is either blank or has an output made from the outputs its imports have; and only modules
whose imports lead to a module without output were cleared. -/
theorem prune_spec {st : St Out} (hw : W X fs st) : ∃ st', prune st = some st' ∧ Cleared st st' ∧ J X fs st' ∧ Clean st' ∧
    (∀ (i : Nat) (m : Mod Out), st[i]? = some m → st'[i]? ≠ some m →
      ∃ (k : Nat) (x : Mod Out), Leads st i k ∧ st[k]? = some x ∧ x.out = none) := by
  have hmain : ∃ st', prune st = some st' ∧ Cleared st st' ∧ ∃ invalid', Inv st' invalid' ∧
      (∀ (k : Nat) (m : Mod Out), k ≠ 0 → st'[k]? = some m → ∀ p ∈ (m.inp.map (·.2)).getD [], p.2 ∉ invalid') ∧
      (∀ j ∈ invalid', ∃ k ∈ unfinished st 0, Leads st j k) ∧
      (∀ (i : Nat) (m : Mod Out), st[i]? = some m → st'[i]? ≠ some m → i ∈ invalid') := by
    unfold prune
    have hcl := clearUnfinished_cleared st
    have hinv := clearUnfinished_inv st
    by_cases he : unfinished st 0 = []
    · rw [if_neg (by simp [he])]
      refine ⟨_, rfl, hcl, unfinished st 0, hinv, ?_, fun j hj => ⟨j, hj, .refl j⟩, ?_⟩
      · intro k m _ _ p _; rw [he]; simp
      · intro i m hm hne
        rcases hcl.2 i m hm with h | ⟨hi, h⟩
        · exact absurd h hne
        · exact hinv.complete i _ hi h rfl
    · rw [if_pos he]
      obtain ⟨st', h1, h2, inv', h3, h4, h5⟩ := rounds_spec ((clearUnfinished st).length + 1) (clearUnfinished st) (unfinished st 0)
        (Nat.lt_succ_of_le List.countP_le_length) hinv
      refine ⟨st', h1, hcl.trans h2, inv', h3, h4, ?_, ?_⟩
      · intro j hj
        obtain ⟨k, hk, hl⟩ := h5 j hj
        exact ⟨k, hk, leads_cleared hcl hl⟩
      · intro i m hm hne
        rcases (hcl.trans h2).2 i m hm with h | ⟨hi, h⟩
        · exact absurd h hne
        · exact h3.complete i _ hi h rfl
  obtain ⟨st', h1, h2, invalid, h3, h4, h5, h6⟩ := hmain
  have hw' : W X fs st' := clear_W (stable_refl X fs) hw h2 (fun _ _ _ _ _ => rfl)
  have hblank : ∀ (i : Nat) (m : Mod Out), i ≠ 0 → st'[i]? = some m → m.out = none → m = blank m.fname := by
    intro i m hi hm ho
    obtain ⟨_, x, hx, ex⟩ := h3.sound i (h3.complete i m hi hm ho)
    rw [hm] at hx; cases hx; exact ex
  have hstrong : ∀ (i : Nat) (m : Mod Out) (o : Out), i ≠ 0 → st'[i]? = some m → m.out = some o →
      m.order ≠ 0 ∧ Good X fs st' m ∧ Fresh X fs st' m o := by
    intro i m o hi hm ho
    obtain ⟨imps, outs, a1, a2, a3, a4, a5, a6, a7⟩ := hw'.made i m o hi hm ho
    have himp : ∀ (k : Nat) (p : Str × Nat) (u : Out), imps[k]? = some p → outs[k]? = some u →
        ∃ m' : Mod Out, st'[p.2]? = some m' ∧ m'.fname = X.resolve fs m.fname p.1 ∧ m'.order ≠ 0 ∧ m'.order < m.order ∧ m'.out = some u := by
      intro k p u hp hu
      obtain ⟨x, ex, fx, hx⟩ := a7 k p u hp hu
      rcases hx with hx | ⟨b1, b2, b3⟩
      · exfalso
        have hx0 : p.2 ≠ 0 := by
          intro h0
          obtain ⟨z, ez, _, _, hz⟩ := hw'.prelude
          rw [h0, ez] at ex
          cases ex
          rw [hx] at hz; cases hz
        exact h4 i m hi hm p (by rw [a3]; exact List.mem_iff_getElem?.2 ⟨k, hp⟩) (h3.complete p.2 x hx0 ex hx)
      · exact ⟨x, ex, fx, b1, b2, b3⟩
    refine ⟨a4, ⟨imps, a1, a2, a3, ?_⟩, ⟨imps, outs, a3, ?_, a6⟩⟩
    · intro p j hp
      obtain ⟨k, hk⟩ := List.mem_iff_getElem?.1 hp
      have hlt : k < outs.length := by
        rw [a5]
        rcases Nat.lt_or_ge k imps.length with h | h
        · exact h
        · rw [List.getElem?_eq_none h] at hk; cases hk
      obtain ⟨x, c1, c2, c3, c4, _⟩ := himp k (p, j) outs[k] hk (List.getElem?_eq_getElem hlt)
      exact ⟨x, c1, c2, c3, c4⟩
    · apply List.ext_getElem?
      intro k
      rw [List.getElem?_map, List.getElem?_map]
      rcases Nat.lt_or_ge k imps.length with h | h
      · have h' : k < outs.length := by omega
        rw [List.getElem?_eq_getElem h, List.getElem?_eq_getElem h']
        obtain ⟨x, c1, _, _, _, c5⟩ := himp k imps[k] outs[k] (List.getElem?_eq_getElem h) (List.getElem?_eq_getElem h')
        simp only [Option.map_some, c1, Option.bind_some, c5]
      · rw [List.getElem?_eq_none h, List.getElem?_eq_none (by omega)]; rfl
  refine ⟨st', h1, h2, ⟨hw'.nodup, hw'.prelude, ?_, ?_, ?_⟩, ?_, ?_⟩
  · intro i m hi hm ho
    cases hout : m.out with
    | none =>
      have := hblank i m hi hm hout
      rw [this] at ho; exact absurd rfl ho
    | some o => exact (hstrong i m o hi hm hout).2.1
  · intro i m hi hm ho
    cases hout : m.out with
    | none => rfl
    | some o => exact absurd ho (hstrong i m o hi hm hout).1
  · intro i m o hi hm ho
    exact (hstrong i m o hi hm ho).2.2
  · intro i m hi hm ho
    rw [hblank i m hi hm ho]; rfl
  · intro i m hm hne
    obtain ⟨k, hk, hl⟩ := h5 i (h6 i m hm hne)
    obtain ⟨k', x, e1, e2, e3, _⟩ := (unfinished_mem st 0 k).1 hk
    rw [Nat.zero_add] at e3
    subst e3
    exact ⟨k, x, hl, e1, e2⟩

/-! ## Histories -/

/-- What happens in watch mode: files are edited (and the edit is noticed), or the program is built. -/
inductive Event where
  | edit (new : Files)
  | build (f : Str)

/-- src/compiler.fu:420-660: the loop of watch mode. -/
def watch (X : Front Out) (fuel : Nat) (par : Bool) : List Event → St Out → Files → Option (St Out × Files)
  | [], st, fs => some (st, fs)
  | .edit new :: t, st, fs => watch X fuel par t (changed fs new st) new
  | .build f :: t, st, fs =>
    match recompile X fs fuel par st f with
    | none => none
    | some (st, _) => watch X fuel par t st fs

/-- No edit changes what the imports of an unchanged file stand for. -/
def StableHistory (X : Front Out) : List Event → Files → Prop
  | [], _ => True
  | .edit new :: t, fs => Stable X fs new ∧ StableHistory X t new
  | .build _ :: t, fs => StableHistory X t fs

theorem recompile_spec {st : St Out} (hw : W X fs st) (n : Nat) (par : Bool) (f : Str) :
    ∃ st1 st' r, prune st = some st1 ∧ recompile X fs n par st f = some (st', r) ∧ compile X fs n par st1 f = (st', r) ∧ Cleared st st1 ∧ J X fs st1 ∧ Clean st1 ∧
      W X fs st' := by
  obtain ⟨st1, h1, h2, h3, h4, _⟩ := prune_spec hw
  cases hc : compile X fs n par st1 f with
  | mk st' r =>
    refine ⟨st1, st', r, h1, ?_, hc, h2, h3, h4, (compile_spec h3 h4 n par f st' r hc).1.weak⟩
    unfold recompile
    rw [h1]
    show some (compile X fs n par st1 f) = _
    rw [hc]

theorem watch_W (n : Nat) (par : Bool) (es : List Event) : ∀ (st : St Out) (fs : Files), W X fs st → StableHistory X es fs →
    ∃ st' fs', watch X n par es st fs = some (st', fs') ∧ W X fs' st' ∧ prelName st' = prelName st := by
  induction es with
  | nil => intro st fs h _; exact ⟨st, fs, rfl, h, rfl⟩
  | cons e es ih =>
    intro st fs h hs
    cases e with
    | edit new =>
      rw [watch]
      obtain ⟨st', fs', h1, h2, h3⟩ := ih _ _ (changed_W hs.1 h) hs.2
      refine ⟨st', fs', h1, h2, h3.trans ?_⟩
      obtain ⟨m, e, _⟩ := h.prelude
      rcases (changed_cleared fs new st).2 0 m e with e' | ⟨h0, _⟩
      · unfold prelName; rw [e, e']
      · exact absurd rfl h0
    | build f =>
      rw [watch]
      obtain ⟨st1, st', r, h1, h2, h3, h4, h5, h6, h7⟩ := recompile_spec h n par f
      rw [h2]
      obtain ⟨st2, fs', g1, g2, g3⟩ := ih _ _ h7 hs
      refine ⟨st2, fs', g1, g2, g3.trans ?_⟩
      obtain ⟨m, e, _⟩ := h.prelude
      rcases h4.2 0 m e with e1 | ⟨h0, _⟩
      · -- the discovery and the compilation keep the prelude
        have hp1 : prelName st1 = prelName st := by unfold prelName; rw [e, e1]
        rw [← hp1]
        unfold compile at h3
        cases hd : deps X fs n st1 f with
        | mk s x =>
          rw [hd] at h3
          obtain ⟨hj, he, _, hk⟩ := deps_spec n st1 f s x h5 hd
          have hps := prelName_of_J h5 he
          cases x with
          | error _ => cases h3; exact hps
          | ok v =>
            obtain ⟨i0, d0⟩ := v
            dsimp only at h3
            have hs0 := h6.settled h5
            have hs' : Settled s := fun i m hi hm hb => hs0 i m hi ((hk i0 d0 rfl).2 i m hm hb) hb
            obtain ⟨_, hf, _⟩ := levels_spec par _ 0 s hj hs' (fun _ _ _ _ h => by omega) (by
              intro k i
              rw [depOrder_mem]
              constructor
              · rintro (h | ⟨j, m, h1, h2, h3⟩)
                · simp at h
                · exact ⟨m, by rw [h3, Nat.zero_add]; exact h1, by omega⟩
              · rintro ⟨m, h1, h2⟩
                exact .inr ⟨i, m, h1, by omega, by omega⟩) st' r h3
            rw [← hps]
            obtain ⟨m', e', _⟩ := hj.prelude
            obtain ⟨o, eo, _⟩ := hf.2 0 m' e'
            unfold prelName; rw [e', eo]; rfl
      · exact absurd rfl h0

/-- **Watch mode.**  After any history of edits and builds (in which no edit redirects the imports of an unchanged file), the next
build does not hang; if it succeeds, every file of the program has exactly the output a clean build gives it; if it fails, there
is a reason for it - unless a file that the program no longer contains has changed. -/
theorem watch_sound (n : Nat) (par : Bool) (prel : Str) (po : Out) (fs0 : Files) (es : List Event) (hs : StableHistory X es fs0) (f : Str) :
    ∃ st fs st' r, watch X n par es (start prel po) fs0 = some (st, fs) ∧ recompile X fs n par st f = some (st', r) ∧
      (r = .ok () → ∀ g, Reach X fs f g → ∃ m ∈ st', m.fname = g ∧ ∃ o, m.out = some o ∧ Means X fs g o) ∧
      (∀ e, r = .error e → e = .fuel ∨ Fault X fs prel f e ∨ (e = .bug ∧ ∃ st1, prune st = some st1 ∧ Orphan X fs st1 f)) := by
  obtain ⟨st, fs, h1, h2, h3⟩ := watch_W n par es (start prel po) fs0 (start_J prel po).weak hs
  obtain ⟨st1, st', r, g1, g2, g3, g4, g5, g6, g7⟩ := recompile_spec h2 n par f
  have hp1 : prelName st1 = prel := by
    obtain ⟨m, e, _⟩ := h2.prelude
    rcases g4.2 0 m e with e1 | ⟨h0, _⟩
    · have : prelName st1 = prelName st := by unfold prelName; rw [e, e1]
      rw [this, h3]; rfl
    · exact absurd rfl h0
  obtain ⟨k1, k2, k3⟩ := compile_spec g5 g6 n par f st' r g3
  refine ⟨st, fs, st', r, h1, g2, ?_, ?_⟩
  · intro hr g hg
    obtain ⟨a1, a2, _⟩ := k2 hr
    obtain ⟨k, x, hk, ex, fx⟩ := a2 g hg
    obtain ⟨o, ho⟩ := Option.isSome_iff_exists.1 (a1 k x ex)
    refine ⟨x, List.mem_iff_getElem?.2 ⟨k, ex⟩, fx, o, ho, ?_⟩
    rw [← fx]
    exact k1.means x.order k x o hk ex (Nat.le_refl _) ho
  · intro e he
    rcases k3 e he with ⟨h, _⟩ | h | ⟨h, h'⟩
    · exact .inl h
    · rw [hp1] at h; exact .inr (.inl h)
    · exact .inr (.inr ⟨h, st1, g1, h'⟩)

/-- When a build in watch mode succeeds: exactly when a clean build does and no file outside of the program has changed. -/
theorem watch_ok_iff (n : Nat) (par : Bool) (prel : Str) (po : Out) (fs0 : Files) (es : List Event) (hs : StableHistory X es fs0) (f : Str)
    (st : St Out) (fs : Files) (hw : watch X n par es (start prel po) fs0 = some (st, fs))
    (files : List Str) (hfiles : ∀ g, fs g ≠ [] → g ∈ files) (hn : files.length < n) :
    ∃ st1 st' r, prune st = some st1 ∧ recompile X fs n par st f = some (st', r) ∧
      (r = .ok () ↔ (compile X fs n par (start prel po) f).2 = .ok () ∧ ¬ Orphan X fs st1 f) := by
  obtain ⟨st0, fs', h1, h2, h3⟩ := watch_W n par es (start prel po) fs0 (start_J prel po).weak hs
  rw [hw] at h1; cases h1
  obtain ⟨st1, st', r, g1, g2, g3, g4, g5, g6, g7⟩ := recompile_spec h2 n par f
  have hp1 : prelName st1 = prel := by
    obtain ⟨m, e, _⟩ := h2.prelude
    rcases g4.2 0 m e with e1 | ⟨h0, _⟩
    · have : prelName st1 = prelName st := by unfold prelName; rw [e, e1]
      rw [this, h3]; rfl
    · exact absurd rfl h0
  obtain ⟨k1, k2, k3⟩ := compile_spec g5 g6 n par f st' r g3
  refine ⟨st1, st', r, g1, g2, ?_⟩
  rw [compile_ok_iff files hfiles prel po n hn par f]
  constructor
  · intro hr
    obtain ⟨a1, a2, a3, a4⟩ := k2 hr
    rw [hp1] at a3
    obtain ⟨k, x, hk, ex, fx⟩ := a2 f (.refl f)
    obtain ⟨o, ho⟩ := Option.isSome_iff_exists.1 (a1 k x ex)
    have := k1.means x.order k x o hk ex (Nat.le_refl _) ho
    rw [fx] at this
    exact ⟨⟨⟨o, this⟩, a3⟩, a4⟩
  · rintro ⟨⟨⟨o, hm⟩, hpre⟩, horph⟩
    cases r with
    | ok u => rfl
    | error e =>
      exfalso
      rcases k3 e rfl with ⟨h, s, hd⟩ | h | ⟨_, h⟩
      · exact deps_nofuel files hfiles n st1 f s .fuel g5 (Nat.lt_of_le_of_lt (unread_le files st1) hn) hd rfl
      · rw [hp1] at h
        exact means_no_fault hm hpre e h
      · exact horph h

/-- Nothing is compiled again needlessly: pruning keeps a module unless its imports lead to one without output. -/
theorem watch_keeps (n : Nat) (par : Bool) (prel : Str) (po : Out) (fs0 : Files) (es : List Event) (hs : StableHistory X es fs0)
    (st : St Out) (fs : Files) (hw : watch X n par es (start prel po) fs0 = some (st, fs)) :
    ∃ st1, prune st = some st1 ∧ ∀ (i : Nat) (m : Mod Out), st[i]? = some m → st1[i]? ≠ some m →
      ∃ (k : Nat) (x : Mod Out), Leads st i k ∧ st[k]? = some x ∧ x.out = none := by
  obtain ⟨st0, fs', h1, h2, h3⟩ := watch_W n par es (start prel po) fs0 (start_J prel po).weak hs
  rw [hw] at h1; cases h1
  obtain ⟨st1, a, _, _, _, b⟩ := prune_spec h2
  exact ⟨st1, a, b⟩

/-! ## Findings -/

/-- `a` alone, after `a` imported `b`. -/
def alone : Files := fun f => if f = [97#8] then [1#8] else if f = [98#8] then [2#8] else []
def before : Files := fun f => if f = [97#8] then [1#8, 98#8] else if f = [98#8] then [2#8] else []
def deleted : Files := fun f => if f = [97#8] then [1#8] else []

/-- **Finding.**  `a` imports `b`; it is built; the import is removed; it is built; then `b` is deleted.  Now every build in watch
mode fails with an internal error, although a clean build succeeds. -/
theorem watch_orphan_fails :
    (watch toy 4 true [.build [97#8], .edit alone, .build [97#8], .edit deleted, .build [97#8]] (start [112#8] []) before).map
      (fun s => (recompile toy s.2 4 true s.1 [97#8]).map (·.2)) = some (some (.error .bug)) ∧
    (compile toy deleted 4 true (start [112#8] []) [97#8]).2 = .ok () := by
  constructor <;> decide +kernel

theorem toy_stable (old new : Files) : Stable toy old new := fun _ _ _ _ _ _ _ => rfl

/-- A front end that looks for an import next to the importing file first: `x` is `1x` if there is such a file, else `x`. -/
def fuzzy : Front Str := { toy with resolve := fun fs _ p => if fs (49#8 :: p) ≠ [] then 49#8 :: p else p }

def near : Files := fun f =>
  if f = [97#8] then [1#8, 98#8] else if f = [98#8] then [2#8] else if f = [49#8, 98#8] then [3#8] else []

/-- **Finding.**  Without the assumption on imports the outputs can be stale: `a` imports `b`, it is built, then a file is created
that the import should now stand for; the next build succeeds, with the output of the old file. -/
theorem watch_redirect_stale :
    (watch fuzzy 5 true [.build [97#8], .edit near, .build [97#8]] (start [112#8] []) before).map
      (fun s => s.1.map fun m => (m.fname, m.out)) = some [([112#8], some []), ([97#8], some [1#8, 2#8]), ([98#8], some [2#8])] ∧
    (compile fuzzy near 5 true (start [112#8] []) [97#8]).1.map (fun m => (m.fname, m.out)) =
      [([112#8], some []), ([97#8], some [1#8, 3#8]), ([49#8, 98#8], some [3#8])] := by
  constructor <;> decide +kernel

/-- The hypotheses of the theorems are met by a history in which an edit causes a rebuild of a dependent file. -/
example : StableHistory toy [.build [97#8], .edit diamond, .build [97#8]] before ∧
    (watch toy 4 true [.build [97#8], .edit diamond, .build [97#8]] (start [112#8] []) before).map
      (fun s => s.1.map fun m => (m.fname, m.out)) =
    some [([112#8], some []), ([97#8], some [1#8, 2#8, 3#8, 3#8]), ([98#8], some [2#8, 3#8]), ([99#8], some [3#8])] :=
  ⟨⟨toy_stable _ _, trivial⟩, by decide +kernel⟩

end Verif.Compile
