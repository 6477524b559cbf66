import Verif.CliProps

/-!
# C95: the command line means what it says
-/

namespace Verif.Cli

/-! ## The loop ends, and reads nothing but options -/

/-- Letters in words. -/
def L (ws : List Str) : Nat := (ws.map (·.length + 1)).sum

theorem left_eq (v : Str) (r : List Str) : left v r = v.length + 1 + L r := by simp [left, L]

theorem left_next (argv : List Str) (idx : Nat) : left (next argv idx) (argv.drop (idx + 1)) ≤ L (argv.drop idx) + 1 := by
  rw [left_eq]
  cases h : argv.drop idx with
  | nil =>
    obtain ⟨h1, h2⟩ := next_nil h
    simp [h1, h2, L]
  | cons v r =>
    obtain ⟨h1, h2⟩ := next_drop h
    simp [h1, h2, L]

theorem L_next (argv : List Str) (idx : Nat) : L (argv.drop (idx + 1)) ≤ L (argv.drop idx) := by
  cases h : argv.drop idx with
  | nil =>
    obtain ⟨h1, h2⟩ := next_nil h
    simp [h2, L]
  | cons v r =>
    obtain ⟨h1, h2⟩ := next_drop h
    simp [h2, L]

theorem loop_total (join : Str → Str) (argv : List Str) : ∀ (n : Nat) (c : C) (val : Str) (idx : Nat),
    left val (argv.drop idx) < n → loop join argv n c val idx ≠ none
  | 0, _, _, _, h => by omega
  | n + 1, c, val, idx, h => by
    by_cases ha : isArg val
    · rw [loop_stops _ _ _ _ _ _ ha]; simp
    rw [loop_succ _ _ _ _ _ _ ha]
    rw [left_eq] at h
    have hnx := left_next argv idx
    have hnx2 := left_next argv (idx + 1)
    have hL := L_next argv idx
    rcases begins argv val idx ha with ⟨a, b, e⟩ | ⟨e⟩ | ⟨l, hl, e⟩ | ⟨l, hl, w, hw, e⟩
    · subst e
      rw [start_word]
      split
      · simp
      · next c1 s ht =>
        simp only [List.length_cons] at h
        rcases turn_reads _ _ _ _ _ _ _ _ (by simp) (by simp [str]) ht with
          ⟨o, l, h1, h2, h3, h4, h5⟩ | ⟨o, h1, h3, h4, h5⟩ | ⟨o, h1, h2, h3, h4, h5⟩ <;> rw [h4, h5] <;>
          exact loop_total join argv n _ _ _ (by omega)
    · subst e
      rw [start_dashes]
      split
      · simp
      · next c1 s ht =>
        simp only [List.length_cons] at h
        rcases turn_reads _ _ _ _ _ _ _ _ (by simp) (by simp [str]) ht with
          ⟨o, l, h1, h2, h3, h4, h5⟩ | ⟨o, h1, h3, h4, h5⟩ | ⟨o, h1, h2, h3, h4, h5⟩ <;> rw [h4, h5] <;>
          exact loop_total join argv n _ _ _ (by omega)
    · subst e
      rw [start_letter _ _ hl]
      split
      · simp
      · next c1 s ht =>
        simp only [List.length_cons] at h
        rcases turn_reads _ _ _ _ _ _ _ _ (by simp) (by simpa [str] using hl) ht with
          ⟨o, l, h1, h2, h3, h4, h5⟩ | ⟨o, h1, h3, h4, h5⟩ | ⟨o, h1, h2, h3, h4, h5⟩ <;> rw [h4, h5] <;>
          exact loop_total join argv n _ _ _ (by omega)
    · subst e
      rw [start_letters _ _ hl _ hw]
      split
      · simp
      · next c1 s ht =>
        simp only [List.length_cons] at h
        rcases turn_reads _ _ _ _ _ _ _ _ (by simp) (by simpa [str] using hl) ht with
          ⟨o, l, h1, h2, h3, h4, h5⟩ | ⟨o, h1, h3, h4, h5⟩ | ⟨o, h1, h2, h3, h4, h5⟩ <;> rw [h4, h5] <;>
          exact loop_total join argv n _ _ _ (by simp only [left_eq, List.length_cons] at *; omega)

theorem split_next {argv : List Str} {idx : Nat} {ws r : List Str} {file : Str} (hf : file ≠ [])
    (h : next argv idx :: argv.drop (idx + 1) = ws ++ file :: r) : argv.drop idx = ws ++ file :: r := by
  cases hd : argv.drop idx with
  | nil =>
    obtain ⟨h1, h2⟩ := next_nil hd
    rw [h1, h2] at h
    cases ws with
    | nil => simp only [List.nil_append, List.cons.injEq] at h; exact absurd h.1.symm hf
    | cons w ws => simp at h
  | cons v t =>
    obtain ⟨h1, h2⟩ := next_drop hd
    rw [h1, h2] at h
    exact h

theorem loop_reads (join : Str → Str) (argv : List Str) (file : Str) (hf : file ≠ []) (c' : C) (idx' : Nat) :
    ∀ (n : Nat) (c : C) (val : Str) (idx : Nat), loop join argv n c val idx = some (.ok (c', file, idx')) →
    ∃ os ws, Written join os ws ∧ val :: argv.drop idx = ws ++ file :: argv.drop idx' ∧ applyAll join c os = .ok c'
      ∧ isArg file
  | 0, _, _, _, h => by simp [loop] at h
  | n + 1, c, val, idx, h => by
    by_cases ha : isArg val
    · rw [loop_stops _ _ _ _ _ _ ha] at h
      simp only [Option.some.injEq, Except.ok.injEq, Prod.mk.injEq] at h
      obtain ⟨rfl, rfl, rfl⟩ := h
      exact ⟨[], [], .nil, by simp, rfl, ha⟩
    rw [loop_succ _ _ _ _ _ _ ha] at h
    rcases begins argv val idx ha with ⟨a, b, e⟩ | ⟨e⟩ | ⟨l, hl, e⟩ | ⟨l, hl, w, hw, e⟩
    · subst e
      rw [start_word] at h
      split at h
      · simp at h
      · next c1 s ht =>
        obtain ⟨os, ws, i1, i2, i3, i4⟩ := loop_reads join argv file hf c' idx' n _ _ _ h
        rcases turn_reads _ _ _ _ _ _ _ _ (by simp) (by simp [str]) ht with
          ⟨o, l, h1, h2, h3, h4, h5⟩ | ⟨o, h1, h3, h4, h5⟩ | ⟨o, h1, h2, h3, h4, h5⟩
        · simp at h2
        · rw [h4, h5] at i2
          refine ⟨o :: os, _, .words h1 ?_ i1, ?_, ?_, i4⟩
          · rcases words_cases o _ h1 with ⟨_, _, _, hnp⟩ | ⟨_, _, _, hpp, _⟩
            · intro p hp; rw [hnp] at hp; cases hp
            · simp at hpp
          · rw [split_next hf i2]; simp
          · simp only [applyAll, h3]; exact i3
        · rw [h4, h5] at i2
          have hd : argv.drop idx = next argv idx :: argv.drop (idx + 1) := by
            cases hd : argv.drop idx with
            | nil => exact absurd (next_nil hd).1 h2.1
            | cons v t => obtain ⟨q1, q2⟩ := next_drop hd; rw [q1, q2]
          refine ⟨o :: os, _, .words h1 ?_ i1, ?_, ?_, i4⟩
          · rcases words_cases o _ h1 with ⟨_, _, hnp, _⟩ | ⟨_, _, _, hpp, hq⟩
            · simp at hnp
            · simp only [List.cons.injEq, and_true] at hpp
              intro p hp
              rw [hq] at hp
              cases hp
              rw [← hpp.2]; exact h2
          · rw [hd, split_next hf i2]; simp
          · simp only [applyAll, h3]; exact i3
    · subst e
      rw [start_dashes] at h
      split at h
      · simp at h
      · next c1 s ht =>
        rcases turn_reads _ _ _ _ _ _ _ _ (by simp) (by simp [str]) ht with
          ⟨o, l, h1, h2, h3, h4, h5⟩ | ⟨o, h1, h3, h4, h5⟩ | ⟨o, h1, h2, h3, h4, h5⟩
        · simp at h2
        · rcases words_cases o _ h1 with ⟨_, _, hq, _⟩ | ⟨_, _, _, hq, _⟩ <;> simp at hq
        · rcases words_cases o _ h1 with ⟨_, _, hq, _⟩ | ⟨_, _, _, hq, _⟩ <;> simp at hq
    · subst e
      rw [start_letter _ _ hl] at h
      split at h
      · simp at h
      · next c1 s ht =>
        obtain ⟨os, ws, i1, i2, i3, i4⟩ := loop_reads join argv file hf c' idx' n _ _ _ h
        rcases turn_reads _ _ _ _ _ _ _ _ (by simp) (by simpa [str] using hl) ht with
          ⟨o, l', h1, h2, h3, h4, h5⟩ | ⟨o, h1, h3, h4, h5⟩ | ⟨o, h1, h2, h3, h4, h5⟩
        · simp only [List.cons.injEq, and_true] at h2
          subst h2
          rw [h4, h5] at i2
          exact ⟨o :: os, _, .letter h1 i1, by rw [split_next hf i2]; simp, by simp only [applyAll, h3]; exact i3, i4⟩
        · rcases words_cases o _ h1 with ⟨_, _, hq, _⟩ | ⟨_, _, _, hq, _⟩ <;> simp at hq
        · rcases words_cases o _ h1 with ⟨_, _, hq, _⟩ | ⟨_, _, _, hq, _⟩ <;> simp at hq
    · subst e
      rw [start_letters _ _ hl _ hw] at h
      split at h
      · simp at h
      · next c1 s ht =>
        obtain ⟨os, ws, i1, i2, i3, i4⟩ := loop_reads join argv file hf c' idx' n _ _ _ h
        rcases turn_reads _ _ _ _ _ _ _ _ (by simp) (by simpa [str] using hl) ht with
          ⟨o, l', h1, h2, h3, h4, h5⟩ | ⟨o, h1, h3, h4, h5⟩ | ⟨o, h1, h2, h3, h4, h5⟩
        · simp only [List.cons.injEq, and_true] at h2
          subst h2
          rw [h4, h5] at i2
          cases ws with
          | nil =>
            simp only [List.nil_append, List.cons.injEq] at i2
            exact absurd i4 (by
              rw [← i2.1]
              simp only [isArg, Decidable.not_not]
              exact ⟨by have := List.length_pos_iff.mpr hw; simp; omega, rfl⟩)
          | cons w0 ws =>
            simp only [List.cons_append, List.cons.injEq] at i2
            obtain ⟨rfl, i2⟩ := i2
            exact ⟨o :: os, _, .together h1 hw i1, by rw [i2]; simp, by simp only [applyAll, h3]; exact i3, i4⟩
        · rcases words_cases o _ h1 with ⟨_, _, hq, _⟩ | ⟨_, _, _, hq, _⟩ <;> simp at hq
        · rcases words_cases o _ h1 with ⟨_, _, hq, _⟩ | ⟨_, _, _, hq, _⟩ <;> simp at hq

/-! ## All options together -/

/-- A variable after the options. -/
def got (c : Str) (join : Str → Str) (l : List Str) : Str := if c = [] then (l.head?.map join).getD [] else c

/-- All variables after the options. -/
def raw (join : Str → Str) (c : C) (os : List O) : C where
  src := got c.src join (srcs os)
  cpp := got c.cpp join (cpps os)
  obj := got c.obj join (objs os)
  bin := got c.bin join (bins os)
  emitCpp := c.emitCpp || decide (O.cpp none ∈ os) || decide (cpps os ≠ [])
  emitObj := c.emitObj || decide (O.obj none ∈ os) || decide (objs os ≠ [])
  emitBin := c.emitBin || decide (O.bin none ∈ os) || decide (bins os ≠ [])
  scheme := if c.scheme.isSome then c.scheme else (schemes os).head?
  run := c.run || decide (O.run ∈ os)
  watch := c.watch || decide (O.watch ∈ os)
  hotswap := c.hotswap || decide (O.hotswap ∈ os)
  shared := c.shared || decide (O.shared ∈ os)
  nocache := c.nocache || decide (O.nocache ∈ os)
  notest := c.notest || decide (O.notest ∈ os)
  test := c.test || decide (O.test ∈ os)

/-- Asked for how often. -/
def times (c : Str) (l : List Str) : Nat := (if c = [] then 0 else 1) + l.length

/-- Nothing is asked for twice. -/
def Once (c : C) (os : List O) : Prop :=
  times c.src (srcs os) ≤ 1 ∧ times c.cpp (cpps os) ≤ 1 ∧ times c.obj (objs os) ≤ 1 ∧ times c.bin (bins os) ≤ 1
    ∧ (if c.scheme.isSome then 1 else 0) + (schemes os).length ≤ 1

theorem raw_nil (join : Str → Str) (c : C) : raw join c [] = c := by
  cases c
  simp only [raw, srcs, cpps, objs, bins, schemes, List.filterMap_nil, got, List.head?_nil, Option.map_none, Option.getD_none,
    List.not_mem_nil, decide_false, Bool.or_false, ne_eq, not_true_eq_false, C.mk.injEq, and_true]
  refine ⟨by split <;> simp_all, by split <;> simp_all, by split <;> simp_all, by split <;> simp_all, ?_⟩
  next s _ _ _ _ _ _ _ => cases s <;> simp

theorem applyAll_spec (join : Str → Str) : ∀ (os : List O) (c : C), (∀ o ∈ os, ∀ p, o.path = some p → IsPath join p) →
    (Once c os ∧ applyAll join c os = .ok (raw join c os)) ∨ (¬ Once c os ∧ ∃ e, applyAll join c os = .error e)
  | [], c, _ => by
    refine .inl ⟨?_, by rw [applyAll, raw_nil]⟩
    simp only [Once, times, srcs, cpps, objs, bins, schemes, List.filterMap_nil, List.length_nil]
    refine ⟨?_, ?_, ?_, ?_, ?_⟩ <;> split <;> omega
  | o :: os, c, hp => by
    have ih := fun c => applyAll_spec join os c (fun o h => hp o (by simp [h]))
    have hpo := hp o (by simp)
    have key : ∀ c1, apply join c o = .ok c1 → (Once c1 os ↔ Once c (o :: os)) → raw join c1 os = raw join c (o :: os) →
        (Once c (o :: os) ∧ applyAll join c (o :: os) = .ok (raw join c (o :: os))) ∨
        (¬ Once c (o :: os) ∧ ∃ e, applyAll join c (o :: os) = .error e) := by
      intro c1 h1 h2 h3
      simp only [applyAll, h1]
      rcases ih c1 with ⟨q1, q2⟩ | ⟨q1, q2⟩
      · exact .inl ⟨h2.mp q1, by rw [q2, h3]⟩
      · exact .inr ⟨fun h => q1 (h2.mpr h), q2⟩
    have bad : ∀ e, apply join c o = .error e → ¬ Once c (o :: os) →
        (Once c (o :: os) ∧ applyAll join c (o :: os) = .ok (raw join c (o :: os))) ∨
        (¬ Once c (o :: os) ∧ ∃ e, applyAll join c (o :: os) = .error e) := by
      intro e h1 h2
      exact .inr ⟨h2, e, by simp only [applyAll, h1]⟩
    cases o with
    | src p =>
      have hj := (hpo p rfl).2.2
      by_cases e : c.src = []
      · refine key _ (by simp [apply, e]; rfl) ?_ ?_
        · simp only [Once, times, srcs, cpps, objs, bins, schemes, List.filterMap_cons, List.length_cons, e, hj, if_true, if_false]
          omega
        · simp [raw, got, srcs, cpps, objs, bins, schemes, e, hj]
      · refine bad .already (by simp [apply, e]) ?_
        simp only [Once, times, srcs, List.filterMap_cons, List.length_cons, e, if_false]
        omega
    | scheme s =>
      by_cases e : c.scheme.isSome = true
      · refine bad .scheme (by simp [apply, e]) ?_
        simp only [Once, schemes, List.filterMap_cons, List.length_cons, e, if_true]
        omega
      · refine key _ (by simp [apply, e]; rfl) ?_ ?_
        · simp only [Once, times, srcs, cpps, objs, bins, schemes, List.filterMap_cons, List.length_cons, e, if_true,
            Option.isSome_some, Bool.false_eq_true, if_false]
          omega
        · simp [raw, got, srcs, cpps, objs, bins, schemes, e]
    | cpp d =>
      cases d with
      | none =>
        refine key _ rfl ?_ ?_
        · simp [Once, times, srcs, cpps, objs, bins, schemes]
        · simp [raw, got, srcs, cpps, objs, bins, schemes]
      | some p =>
        have hj := (hpo p rfl).2.2
        by_cases e : c.cpp = []
        · refine key _ (by simp [apply, e]; rfl) ?_ ?_
          · simp only [Once, times, srcs, cpps, objs, bins, schemes, List.filterMap_cons, List.length_cons, e, hj, if_true, if_false]
            omega
          · simp [raw, got, srcs, cpps, objs, bins, schemes, e, hj]
        · refine bad .already (by simp [apply, e]) ?_
          simp only [Once, times, cpps, List.filterMap_cons, List.length_cons, e, if_false]
          omega
    | obj d =>
      cases d with
      | none =>
        refine key _ rfl ?_ ?_
        · simp [Once, times, srcs, cpps, objs, bins, schemes]
        · simp [raw, got, srcs, cpps, objs, bins, schemes]
      | some p =>
        have hj := (hpo p rfl).2.2
        by_cases e : c.obj = []
        · refine key _ (by simp [apply, e]; rfl) ?_ ?_
          · simp only [Once, times, srcs, cpps, objs, bins, schemes, List.filterMap_cons, List.length_cons, e, hj, if_true, if_false]
            omega
          · simp [raw, got, srcs, cpps, objs, bins, schemes, e, hj]
        · refine bad .already (by simp [apply, e]) ?_
          simp only [Once, times, objs, List.filterMap_cons, List.length_cons, e, if_false]
          omega
    | bin d =>
      cases d with
      | none =>
        refine key _ rfl ?_ ?_
        · simp [Once, times, srcs, cpps, objs, bins, schemes]
        · simp [raw, got, srcs, cpps, objs, bins, schemes]
      | some p =>
        have hj := (hpo p rfl).2.2
        by_cases e : c.bin = []
        · refine key _ (by simp [apply, e]; rfl) ?_ ?_
          · simp only [Once, times, srcs, cpps, objs, bins, schemes, List.filterMap_cons, List.length_cons, e, hj, if_true, if_false]
            omega
          · simp [raw, got, srcs, cpps, objs, bins, schemes, e, hj]
        · refine bad .already (by simp [apply, e]) ?_
          simp only [Once, times, bins, List.filterMap_cons, List.length_cons, e, if_false]
          omega
    | run | watch | hotswap | shared | nocache | notest | test =>
      refine key _ rfl ?_ ?_
      · simp [Once, times, srcs, cpps, objs, bins, schemes]
      · simp [raw, got, srcs, cpps, objs, bins, schemes]

end Verif.Cli
