import Verif.CompileLevels
/-!
# Compiling a program: C76, C77
-/
namespace Verif.Compile
open Verif

variable {Out : Type} {X : Front Out} {fs : Files}

/-- Modules without output have not been read. -/
def Clean (st : St Out) : Prop := ∀ (i : Nat) (m : Mod Out), i ≠ 0 → st[i]? = some m → m.out = none → m.inp = none

theorem Clean.settled {st : St Out} (hj : J X fs st) (h : Clean st) : Settled st := by
  intro i m hi hm hb
  have := h i m hi hm (hj.blank i m hi hm hb.2)
  have h1 := hb.1
  rw [this] at h1; cases h1

/-- The list has the imports of what is in it. -/
theorem J.closed {st : St Out} (hj : J X fs st) {f g : Str} (hr : Reach X fs f g) :
    ∀ (i : Nat) (m : Mod Out), st[i]? = some m → m.fname = f → m.order ≠ 0 →
    ∃ (k : Nat) (x : Mod Out), st[k]? = some x ∧ x.fname = g ∧ x.order ≠ 0 := by
  induction hr with
  | refl => intro i m hm hf ho; exact ⟨i, m, hm, hf, ho⟩
  | step hi _ ih =>
    intro i m hm hf ho
    subst hf
    obtain ⟨imps, h1, h2, h3, h4⟩ := hj.good i m (hj.order_inp hm ho).1 hm ho
    obtain ⟨_, pats, hp, p, hpp, rfl⟩ := hi
    rw [h2] at hp
    cases hp
    obtain ⟨⟨q, j⟩, hq, rfl⟩ := List.mem_map.1 hpp
    obtain ⟨x, ex, a, b, _⟩ := h4 q j hq
    exact ih j x ex a b

/-- A module that the program does not contain and that has no output. -/
def Orphan (X : Front Out) (fs : Files) (st : St Out) (f : Str) : Prop :=
  ∃ (i : Nat) (m : Mod Out), i ≠ 0 ∧ st[i]? = some m ∧ m.out = none ∧ ¬ Reach X fs f m.fname

theorem prelName_of_J {st st' : St Out} (hj : J X fs st) (he : Ext st st') : prelName st' = prelName st := by
  obtain ⟨m0, e0, _⟩ := hj.prelude
  obtain ⟨m0', e0', f0, _⟩ := he 0 m0 e0
  unfold prelName; rw [e0, e0']; simp [f0]

theorem start_prelude {st : St Out} (hj : J X fs st) {m : Mod Out} (hm : st[0]? = some m) : m.order = 0 ∧ m.out.isSome = true ∧ m.fname = prelName st := by
  obtain ⟨m0, e0, h0, _, h2⟩ := hj.prelude
  rw [hm] at e0; cases e0
  exact ⟨h0, h2, by unfold prelName; rw [hm]; rfl⟩

/-- A compilation, from a consistent module list. -/
theorem compile_spec {st : St Out} (hj : J X fs st) (hc : Clean st) (n : Nat) (par : Bool) (f : Str) (st' : St Out) (r : Except Err Unit)
    (h : compile X fs n par st f = (st', r)) :
    J X fs st' ∧
    (r = .ok () → (∀ (i : Nat) (m : Mod Out), st'[i]? = some m → m.out.isSome = true) ∧
      (∀ g, Reach X fs f g → ∃ (k : Nat) (x : Mod Out), k ≠ 0 ∧ st'[k]? = some x ∧ x.fname = g) ∧
      ¬ Reach X fs f (prelName st) ∧ ¬ Orphan X fs st f) ∧
    (∀ e, r = .error e → (e = .fuel ∧ ∃ s, deps X fs n st f = (s, .error .fuel)) ∨ Fault X fs (prelName st) f e ∨ (e = .bug ∧ Orphan X fs st f)) := by
  unfold compile at h
  cases hd : deps X fs n st f with
  | mk st1 r1 =>
    rw [hd] at h
    obtain ⟨hj1, he1, hn1, hk1⟩ := deps_spec n st f st1 r1 hj hd
    have hs := hc.settled hj
    cases r1 with
    | error e =>
      cases h
      refine ⟨hj1, fun h => (by cases h), fun e' h' => ?_⟩
      cases h'
      rcases deps_error (prelName st) n st f _ _ hj rfl (fun k m hk hm hb => absurd hb (hs k m hk hm)) hd with h | h
      · subst h; exact .inl ⟨rfl, _, rfl⟩
      · exact .inr (.inl h)
    | ok v =>
      obtain ⟨i0, d0⟩ := v
      dsimp only at h
      obtain ⟨⟨hd0, m0, em0, fm0, om0⟩, hb1⟩ := hk1 i0 d0 rfl
      have hs1 : Settled st1 := fun i m hi hm hb => hs i m hi (hb1 i m hm hb) hb
      have hreach : ∀ g, Reach X fs f g → ∃ (k : Nat) (x : Mod Out), st1[k]? = some x ∧ x.fname = g ∧ x.order ≠ 0 :=
        fun g hg => hj1.closed hg i0 m0 em0 fm0 (by rw [om0]; exact hd0)
      have hnopre : ¬ Reach X fs f (prelName st) := by
        intro hr
        obtain ⟨k, x, ex, fx, ox⟩ := hreach _ hr
        obtain ⟨p, ep, _⟩ := hj1.prelude
        obtain ⟨hp1, _, hp2⟩ := start_prelude hj1 ep
        rw [prelName_of_J hj he1] at hp2
        have := (hj1.same ex ep (by rw [fx, hp2])).2
        subst this
        exact ox hp1
      obtain ⟨hj2, hf2, ho2, he2⟩ := levels_spec par (depOrder st1 0 []) 0 st1 hj1 hs1 (fun _ _ _ _ h => by omega) (by
        intro k i
        rw [depOrder_mem]
        constructor
        · rintro (h | ⟨j, m, h1, h2, h3⟩)
          · simp at h
          · exact ⟨m, by rw [h3, Nat.zero_add]; exact h1, by omega⟩
        · rintro ⟨m, h1, h2⟩
          exact .inr ⟨i, m, h1, by omega, by omega⟩) st' r h
      refine ⟨hj2, fun hr => ⟨?_, ?_, hnopre, ?_⟩, fun e hr => ?_⟩
      · intro i m hm
        by_cases hi : i = 0
        · subst hi; exact (start_prelude hj2 hm).2.1
        · exact ho2 hr i m hi hm
      · intro g hg
        obtain ⟨k, x, ex, fx, ox⟩ := hreach g hg
        obtain ⟨o, eo, _⟩ := hf2.2 k x ex
        exact ⟨k, _, (hj1.order_inp ex ox).1, eo, fx⟩
      · rintro ⟨i, m, hi, hm, ho, hnr⟩
        obtain ⟨m1, e1, f1, _⟩ := he1 i m hm
        rcases hn1 i m1 e1 with h | h
        · rw [hm] at h; cases h
          -- unread in st1: it has no output afterwards
          have hin : m.inp = none := hc i m hi hm ho
          obtain ⟨o, eo, _⟩ := hf2.2 i m e1
          have := ho2 hr i _ hi eo
          obtain ⟨o', ho'⟩ := Option.isSome_iff_exists.1 this
          obtain ⟨imps, outs, h1, _⟩ := hj2.fresh i _ o' hi eo ho'
          rw [hin] at h1; cases h1
        · rw [f1] at h; exact hnr h
      · obtain ⟨s, i, m, hfs, hjs, hi, hm, hout, hdone, hsol⟩ := he2 e hr
        right
        obtain ⟨x, hx, ex, kx⟩ := hfs.back hm
        have exf : x.fname = m.fname := by rw [ex]
        have exi : x.inp = m.inp := by rw [ex]
        have exo : x.order = m.order := by rw [ex]
        have hxout : x.out = none := by
          cases h : x.out with
          | none => rfl
          | some o => have := kx (by rw [h]; rfl); rw [hout, h] at this; cases this
        cases hin : m.inp with
        | none =>
          right
          unfold solveOne at hsol
          rw [hin] at hsol
          cases hsol
          refine ⟨rfl, i, x, hi, ?_, hxout, ?_⟩
          · rcases hn1 i x hx with h | h
            · exact h
            · exfalso
              obtain ⟨k, y, ey, fy, oy⟩ := hreach _ h
              have := (hj1.same ey hx fy).2
              subst this
              have := (hj1.order_inp ey oy).2
              rw [exi, hin] at this; cases this
          · intro h
            obtain ⟨k, y, ey, fy, oy⟩ := hreach _ h
            have := (hj1.same ey hx fy).2
            subst this
            have := (hj1.order_inp ey oy).2
            rw [exi, hin] at this; cases this
        | some v =>
          left
          obtain ⟨src, imps⟩ := v
          have hne : m.order ≠ 0 := fun ho => hs1 i x hi hx ⟨by rw [exi, hin]; rfl, by rw [exo]; exact ho⟩
          have hreachm : Reach X fs f m.fname := by
            rcases hn1 i x hx with h | h
            · have := hc i x hi h hxout
              rw [exi, hin] at this; cases this
            · rw [exf] at h; exact h
          obtain ⟨imps', g1, g2, g3, g4⟩ := hjs.good i m hi hm hne
          rw [hin] at g3; cases g3
          unfold solveOne at hsol
          rw [hin] at hsol
          dsimp only at hsol
          split at hsol
          · cases hsol
          · rename_i e' hsolve
            cases hsol
            refine .check m.fname (imps.map (·.1)) _ e' hreachm g1 g2 (by simp) ?_ hsolve
            intro k hk
            have hk : k < imps.length := by simpa using hk
            obtain ⟨y, ey, a, b, c⟩ := g4 imps[k].1 imps[k].2 (List.getElem_mem hk)
            have hy0 := (hjs.order_inp ey b).1
            obtain ⟨o, ho⟩ := Option.isSome_iff_exists.1 (hdone imps[k].2 y hy0 ey c)
            have := hjs.means y.order imps[k].2 y o hy0 ey (Nat.le_refl _) ho
            rw [a] at this
            simp only [List.getElem_map, ey, Option.bind_some, ho, Option.getD_some]
            exact this

theorem unread_le (files : List Str) (st : St Out) : unread files st ≤ files.length := List.countP_le_length

/-! ## The theorems -/

/-- The module list with which the compiler starts: the prelude. -/
def start (prel : Str) (po : Out) : St Out := [{ fname := prel, inp := some ([], []), order := 0, out := some po }]

theorem start_J (prel : Str) (po : Out) : J X fs (start prel po) := by
  refine ⟨by simp [start], ⟨_, rfl, rfl, rfl, rfl⟩, ?_, ?_, ?_⟩
  all_goals
    intro i m
    intros
    rename_i hi hm _
    exfalso
    first
      | (cases i with
        | zero => exact hi rfl
        | succ i => simp [start] at hm)

theorem start_clean (prel : Str) (po : Out) : Clean (start prel po) := by
  intro i m hi hm
  cases i with
  | zero => exact absurd rfl hi
  | succ i => simp [start] at hm

theorem start_orphan (prel : Str) (po : Out) (f : Str) : ¬ Orphan X fs (start prel po) f := by
  rintro ⟨i, m, hi, hm, _⟩
  cases i with
  | zero => exact hi rfl
  | succ i => simp [start] at hm

/-- The compiler stops: with as many levels of recursion as there are files (and one more), the bound is never reached.  In
particular circles of imports are noticed. -/
theorem compile_terminates (files : List Str) (hfiles : ∀ g, fs g ≠ [] → g ∈ files) (st : St Out) (hj : J X fs st) (hc : Clean st)
    (n : Nat) (hn : files.length < n) (par : Bool) (f : Str) : (compile X fs n par st f).2 ≠ .error .fuel := by
  intro h
  cases hr : compile X fs n par st f with
  | mk st' r =>
    rw [hr] at h
    rcases (compile_spec hj hc n par f st' r hr).2.2 .fuel h with ⟨_, s, hs⟩ | h | ⟨h, _⟩
    · exact deps_nofuel files hfiles n st f s .fuel hj (Nat.lt_of_le_of_lt (unread_le files st) hn) hs rfl
    · cases h
    · cases h

/-- When the compiler succeeds, every file of the program has been compiled, each against the outputs of its imports. -/
theorem compile_sound (prel : Str) (po : Out) (n : Nat) (par : Bool) (f : Str) (st' : St Out)
    (h : compile X fs n par (start prel po) f = (st', .ok ())) (g : Str) (hg : Reach X fs f g) :
    ∃ m ∈ st', m.fname = g ∧ ∃ o, m.out = some o ∧ Means X fs g o := by
  obtain ⟨hj, hok, _⟩ := compile_spec (start_J prel po) (start_clean prel po) n par f st' _ h
  obtain ⟨h1, h2, _⟩ := hok rfl
  obtain ⟨k, x, hk, ex, fx⟩ := h2 g hg
  obtain ⟨o, ho⟩ := Option.isSome_iff_exists.1 (h1 k x ex)
  refine ⟨x, List.mem_iff_getElem?.2 ⟨k, ex⟩, fx, o, ho, ?_⟩
  rw [← fx]
  exact hj.means x.order k x o hk ex (Nat.le_refl _) ho

/-- The compiler succeeds exactly when the program has a meaning: it contains no circle, all its files exist and parse, and each
passes the checks against its imports. -/
theorem compile_ok_iff (files : List Str) (hfiles : ∀ g, fs g ≠ [] → g ∈ files) (prel : Str) (po : Out) (n : Nat)
    (hn : files.length < n) (par : Bool) (f : Str) :
    (compile X fs n par (start prel po) f).2 = .ok () ↔ (∃ o, Means X fs f o) ∧ ¬ Reach X fs f prel := by
  cases hr : compile X fs n par (start prel po) f with
  | mk st' r =>
    obtain ⟨hj, hok, herr⟩ := compile_spec (start_J prel po) (start_clean prel po) n par f st' r hr
    constructor
    · intro h
      have h : r = .ok () := h
      subst h
      obtain ⟨_, _, _, o, _, hm⟩ := compile_sound prel po n par f st' hr f (.refl f)
      exact ⟨⟨o, hm⟩, (hok rfl).2.2.1⟩
    · rintro ⟨⟨o, hm⟩, hpre⟩
      show r = .ok ()
      cases r with
      | ok u => rfl
      | error e =>
        exfalso
        rcases herr e rfl with ⟨h, _⟩ | h | ⟨_, h⟩
        · have := compile_terminates files hfiles (start prel po) (start_J (X := X) (fs := fs) prel po) (start_clean prel po) n hn par f
          rw [hr, h] at this; exact this rfl
        · exact means_no_fault hm hpre e h
        · exact start_orphan prel po f h

/-- An error that the compiler reports has a reason of its kind in a file of the program; it is never an internal error. -/
theorem compile_error (files : List Str) (hfiles : ∀ g, fs g ≠ [] → g ∈ files) (prel : Str) (po : Out) (n : Nat)
    (hn : files.length < n) (par : Bool) (f : Str) (e : Err) (h : (compile X fs n par (start prel po) f).2 = .error e) :
    Fault X fs prel f e := by
  cases hr : compile X fs n par (start prel po) f with
  | mk st' r =>
    rw [hr] at h
    rcases (compile_spec (start_J prel po) (start_clean prel po) n par f st' r hr).2.2 e h with ⟨h', _⟩ | h' | ⟨_, h'⟩
    · exfalso
      have := compile_terminates files hfiles (start prel po) (start_J (X := X) (fs := fs) prel po) (start_clean prel po) n hn par f
      rw [hr] at this
      subst h'
      exact this h
    · exact h'
    · exact absurd h' (start_orphan prel po f)

/-- A program with an import circle is refused. -/
theorem compile_circle (prel : Str) (po : Out) (n : Nat) (par : Bool) (f g h : Str) (hg : Reach X fs f g) (hi : Imports X fs g h)
    (hb : Reach X fs h g) : (compile X fs n par (start prel po) f).2 ≠ .ok () := by
  intro hok
  cases hr : compile X fs n par (start prel po) f with
  | mk st' r =>
    rw [hr] at hok
    have hok : r = .ok () := hok
    subst hok
    obtain ⟨_, _, _, o, _, hm⟩ := compile_sound prel po n par f st' hr g hg
    exact means_no_circle hm h hi hb

theorem fill_ext {st a b : St Out} (ha : Fill st a) (hb : Fill st b) (hja : J X fs a) (hjb : J X fs b)
    (hoa : ∀ (i : Nat) (m : Mod Out), a[i]? = some m → m.out.isSome = true)
    (hob : ∀ (i : Nat) (m : Mod Out), b[i]? = some m → m.out.isSome = true) (hp : ∀ m : Mod Out, st[0]? = some m → m.out.isSome = true) : a = b := by
  apply List.ext_getElem?
  intro k
  cases hk : st[k]? with
  | none =>
    rw [List.getElem?_eq_none_iff] at hk
    rw [List.getElem?_eq_none (by rw [ha.1]; exact hk), List.getElem?_eq_none (by rw [hb.1]; exact hk)]
  | some m =>
    obtain ⟨o, e1, k1⟩ := ha.2 k m hk
    obtain ⟨o', e2, k2⟩ := hb.2 k m hk
    rw [e1, e2]
    by_cases h0 : k = 0
    · subst h0
      have := hp m hk
      rw [k1 this, k2 this]
    · obtain ⟨x, hx⟩ := Option.isSome_iff_exists.1 (hoa k _ e1)
      obtain ⟨y, hy⟩ := Option.isSome_iff_exists.1 (hob k _ e2)
      have hx' : o = some x := hx
      have hy' : o' = some y := hy
      have m1 : Means X fs m.fname x := hja.means m.order k { m with out := o } x h0 e1 (Nat.le_refl _) hx
      have m2 : Means X fs m.fname y := hjb.means m.order k { m with out := o' } y h0 e2 (Nat.le_refl _) hy
      have := means_unique m1 m2
      rw [hx', hy', this]

/-- Compiling in parallel gives the same result as compiling one file after the other. -/
theorem compile_parallel (prel : Str) (po : Out) (n : Nat) (f : Str) :
    ((compile X fs n true (start prel po) f).2 = .ok () ↔ (compile X fs n false (start prel po) f).2 = .ok ()) ∧
    ((compile X fs n true (start prel po) f).2 = .ok () → compile X fs n true (start prel po) f = compile X fs n false (start prel po) f) := by
  have key : ∀ par st1, compile X fs n par (start prel po) f = (st1, .ok ()) → ∀ par', ∃ st2, compile X fs n par' (start prel po) f = (st2, .ok ()) ∧ st1 = st2 := by
    intro par st1 h1 par'
    cases h2 : compile X fs n par' (start prel po) f with
    | mk st2 r2 =>
      have s1 := compile_spec (start_J prel po) (start_clean prel po) n par f st1 _ h1
      have s2 := compile_spec (start_J prel po) (start_clean prel po) n par' f st2 _ h2
      obtain ⟨_, _, _, o, _, hm⟩ := compile_sound prel po n par f st1 h1 f (.refl f)
      have hr2 : r2 = .ok () := by
        cases r2 with
        | ok u => rfl
        | error e =>
          exfalso
          rcases s2.2.2 e rfl with ⟨_, s, hs⟩ | h | ⟨_, h⟩
          · unfold compile at h1
            rw [hs] at h1; cases h1
          · exact means_no_fault hm (s1.2.1 rfl).2.2.1 e h
          · exact start_orphan prel po f h
      subst hr2
      refine ⟨st2, rfl, ?_⟩
      -- both fill in the same list
      unfold compile at h1 h2
      cases hd : deps X fs n (start prel po) f with
      | mk st r =>
        rw [hd] at h1 h2
        cases r with
        | error e => cases h1
        | ok v =>
          obtain ⟨i0, d0⟩ := v
          dsimp only at h1 h2
          obtain ⟨hj, he, _, hk⟩ := deps_spec n (start prel po) f st _ (start_J (X := X) (fs := fs) prel po) hd
          have hs0 := (start_clean prel po).settled (start_J (X := X) (fs := fs) prel po)
          have hs : Settled st := fun i m hi hm hb => hs0 i m hi ((hk i0 d0 rfl).2 i m hm hb) hb
          have hlev : ∀ k i, i ∈ ((depOrder st 0 [])[k]?).getD [] ↔ ∃ m : Mod Out, st[i]? = some m ∧ m.order = 0 + k := by
            intro k i
            rw [depOrder_mem]
            constructor
            · rintro (h | ⟨j, m, h1, h2, h3⟩)
              · simp at h
              · exact ⟨m, by rw [h3, Nat.zero_add]; exact h1, by omega⟩
            · rintro ⟨m, h1, h2⟩
              exact .inr ⟨i, m, h1, by omega, by omega⟩
          obtain ⟨a1, b1, _, _⟩ := levels_spec par _ 0 st hj hs (fun _ _ _ _ h => by omega) hlev st1 _ h1
          obtain ⟨a2, b2, _, _⟩ := levels_spec par' _ 0 st hj hs (fun _ _ _ _ h => by omega) hlev st2 _ h2
          exact fill_ext b1 b2 a1 a2 (s1.2.1 rfl).1 (s2.2.1 rfl).1 (fun m hm => (start_prelude hj hm).2.1)
  have hsplit : ∀ par, (compile X fs n par (start prel po) f).2 = .ok () → ∃ s, compile X fs n par (start prel po) f = (s, .ok ()) := by
    intro par h
    cases hr : compile X fs n par (start prel po) f with
    | mk s r => rw [hr] at h; exact ⟨s, by rw [show r = .ok () from h]⟩
  refine ⟨⟨fun h => ?_, fun h => ?_⟩, fun h => ?_⟩
  · obtain ⟨s, hs⟩ := hsplit _ h
    obtain ⟨s2, h2, _⟩ := key _ s hs false
    rw [h2]
  · obtain ⟨s, hs⟩ := hsplit _ h
    obtain ⟨s2, h2, _⟩ := key _ s hs true
    rw [h2]
  · obtain ⟨s, hs⟩ := hsplit _ h
    obtain ⟨s2, h2, e⟩ := key _ s hs false
    rw [hs, h2, e]

/-! ## Examples -/

/-- A small front end: the first byte of a file is its text, the others are the names of its imports; the output is the text with
the outputs of the imports. -/
def toy : Front Str where
  parse _ src := if src.head? = some 63#8 then .error [63#8] else .ok ((src.drop 1).map fun b => [b])
  resolve _ _ p := p
  solve _ src outs := .ok (src.take 1 ++ outs.flatten)
  nothing := []

/-- `a` imports `b` and `c`, `b` imports `c`. -/
def diamond : Files := fun f =>
  if f = [97#8] then [1#8, 98#8, 99#8] else if f = [98#8] then [2#8, 99#8] else if f = [99#8] then [3#8] else []

example : (compile toy diamond 4 true (start [112#8] []) [97#8]).2 = .ok () := by decide +kernel
example : ((compile toy diamond 4 false (start [112#8] []) [97#8]).1.map fun m => (m.fname, m.order, m.out)) =
    [([112#8], 0, some []), ([97#8], 3, some [1#8, 2#8, 3#8, 3#8]), ([98#8], 2, some [2#8, 3#8]), ([99#8], 1, some [3#8])] := by
  decide +kernel
example : ∃ o, Means toy diamond [97#8] o :=
  ((compile_ok_iff (X := toy) (fs := diamond) [[97#8], [98#8], [99#8]] (by
    intro g hg
    unfold diamond at hg
    split at hg
    · simp_all
    · split at hg
      · simp_all
      · split at hg
        · simp_all
        · exact absurd rfl hg) [112#8] [] 4 (by decide) true [97#8]).1 (by decide +kernel)).1

/-- `a` imports `b`, which imports `a`; `c` imports a file that is missing; `d` does not parse. -/
def broken : Files := fun f =>
  if f = [97#8] then [1#8, 98#8] else if f = [98#8] then [2#8, 97#8] else if f = [99#8] then [3#8, 122#8]
  else if f = [100#8] then [63#8] else []

example : (compile toy broken 5 true (start [112#8] []) [97#8]).2 = .error .circle := by decide +kernel
example : (compile toy broken 5 true (start [112#8] []) [99#8]).2 = .error .missing := by decide +kernel
example : (compile toy broken 5 true (start [112#8] []) [100#8]).2 = .error (.user [63#8]) := by decide +kernel

end Verif.Compile
