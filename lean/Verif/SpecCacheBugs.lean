import Verif.SpecCacheMore
/-! # C96: where the cache does change what a call gets -/
namespace Verif.SpecCache
open Verif

/-! ### running the model forward -/

def entering (t : Tmpl) (p : Int) (l : List Slot) (lit : Bool) (error : Bool) (m : Str) : Frame :=
  ⟨p, t, l, lit, error, t.pre ++ m, .entered, [], .fail, [], 0⟩

theorem call_miss {st : State} {t : Tmpl} {p : Int} {l : List Slot} {lit error : Bool} {m : Str}
    (h : st.specs p (t.pre ++ m) = none) :
    step st (.call t p l lit error m) = .ok { st with frames := entering t p l lit error m :: st.frames } := by
  simp only [step, h, entering]

theorem call_hit {st : State} {t : Tmpl} {p : Int} {l : List Slot} {lit : Bool} {m : Str} {pre : Entry}
    (h : st.specs p (t.pre ++ m) = some pre) :
    step st (.call t p l lit false m) = .ok { st with log := st.log ++ [⟨t, p, l, lit, pre⟩] } := by
  simp [step, h]

theorem match_new {specs : Specs} {insts : List Inst} {rest : List Frame} {log : List Done} {t : Tmpl} {p : Int}
    {l fixed : List Slot} {lit ok : Bool} {m n : Str} (hm : mangleTypes fixed = .ok n) (h : specs p (t.pre ++ n) = none) :
    step ⟨specs, insts, entering t p l lit false m :: rest, log⟩ (.match_ fixed ok) =
      .ok (if ok then ⟨put specs p (t.pre ++ n) .fail, insts,
          ⟨p, t, l, lit, false, t.pre ++ m, .matched, [t.pre ++ n], .fail, fixed, 0⟩ :: rest, log⟩
        else ⟨put specs p (t.pre ++ n) .fail, insts, rest, log ++ [⟨t, p, l, lit, .fail⟩]⟩) := by
  cases ok <;> simp [step, entering, resetArgs, hm, prefixOf_pre, resetMangle, h, setSpec, resetSpec, State.pop]

theorem match_ok {specs : Specs} {insts : List Inst} {rest : List Frame} {log : List Done} {t : Tmpl} {p : Int}
    {l fixed : List Slot} {lit : Bool} {m n : Str} (hm : mangleTypes fixed = .ok n) (h : specs p (t.pre ++ n) = none) :
    step ⟨specs, insts, entering t p l lit false m :: rest, log⟩ (.match_ fixed true) =
      .ok ⟨put specs p (t.pre ++ n) .fail, insts,
          ⟨p, t, l, lit, false, t.pre ++ m, .matched, [t.pre ++ n], .fail, fixed, 0⟩ :: rest, log⟩ := by
  rw [match_new hm h]; rfl

theorem create_new {specs : Specs} {insts : List Inst} {rest : List Frame} {log : List Done} {t : Tmpl} {p : Int}
    {l fixed : List Slot} {lit : Bool} {m : Str} {ms : List Str} :
    step ⟨specs, insts, ⟨p, t, l, lit, false, m, .matched, ms, .fail, fixed, 0⟩ :: rest, log⟩ .create =
      .ok ⟨specs, insts ++ [⟨t, p, fixed, false, none⟩],
        ⟨p, t, l, lit, false, m, .created, ms, .fail, fixed, insts.length⟩ :: rest, log⟩ := by
  simp [step]

/-- the signature is the one the instance is made for -/
theorem first_same {specs : Specs} {insts : List Inst} {rest : List Frame} {log : List Done} {t : Tmpl} {p : Int}
    {l fixed sig : List Slot} {lit : Bool} {m n : Str} {i : Nat} (hn : mangleTypes sig = .ok n)
    (h : specs p (t.pre ++ n) = some .fail) :
    step ⟨specs, insts, ⟨p, t, l, lit, false, t.pre ++ m, .created, [t.pre ++ n], .fail, fixed, i⟩ :: rest, log⟩
        (.first sig false false) =
      .ok ⟨put specs p (t.pre ++ n) (.inst i), insts,
        ⟨p, t, l, lit, false, t.pre ++ m, .solving, [t.pre ++ n], .inst i, fixed, i⟩ :: rest, log⟩ := by
  simp [step, publish, resetArgs, hn, prefixOf_pre, resetMangle, resetSpec, setAll, setSpec, h, bind, Except.bind]

/-- the signature is somebody else's -/
theorem first_other {specs : Specs} {insts : List Inst} {rest : List Frame} {log : List Done} {t : Tmpl} {p : Int}
    {l fixed sig : List Slot} {lit : Bool} {m n k : Str} {i j : Nat} (hn : mangleTypes sig = .ok n) (hk : n ≠ k)
    (h : specs p (t.pre ++ k) = some .fail) (h2 : specs p (t.pre ++ n) = some (.inst j)) :
    step ⟨specs, insts, ⟨p, t, l, lit, false, t.pre ++ m, .created, [t.pre ++ k], .fail, fixed, i⟩ :: rest, log⟩
        (.first sig false false) =
      .ok ⟨put specs p (t.pre ++ k) (.inst j), insts, rest, log ++ [⟨t, p, l, lit, .inst j⟩]⟩ := by
  simp [step, publish, resetArgs, hn, prefixOf_pre, resetMangle, resetSpec, setAll, setSpec, h, h2, bind, Except.bind, hk,
    State.pop]

theorem last_same {specs : Specs} {insts : List Inst} {rest : List Frame} {log : List Done} {t : Tmpl} {p : Int}
    {l fixed sig : List Slot} {lit : Bool} {m n : Str} {i : Nat} (hn : mangleTypes sig = .ok n) :
    step ⟨specs, insts, ⟨p, t, l, lit, false, t.pre ++ m, .solving, [t.pre ++ n], .inst i, fixed, i⟩ :: rest, log⟩
        (.last sig false) =
      .ok ⟨specs, finish insts i sig, rest, log ++ [⟨t, p, l, lit, .inst i⟩]⟩ := by
  simp [step, publish, resetArgs, hn, prefixOf_pre, resetMangle, resetSpec, State.pop]

theorem last_other {specs : Specs} {insts : List Inst} {rest : List Frame} {log : List Done} {t : Tmpl} {p : Int}
    {l fixed sig : List Slot} {lit : Bool} {m n k : Str} {i j : Nat} (hn : mangleTypes sig = .ok n) (hk : n ≠ k) (hij : j ≠ i)
    (h : specs p (t.pre ++ k) = some (.inst i)) (h2 : specs p (t.pre ++ n) = some (.inst j)) :
    step ⟨specs, insts, ⟨p, t, l, lit, false, t.pre ++ m, .solving, [t.pre ++ k], .inst i, fixed, i⟩ :: rest, log⟩
        (.last sig false) =
      .ok ⟨put specs p (t.pre ++ k) (.inst j), destroy insts i, rest, log ++ [⟨t, p, l, lit, .inst j⟩]⟩ := by
  simp [step, publish, resetArgs, hn, prefixOf_pre, resetMangle, resetSpec, setAll, setSpec, h, h2, bind, Except.bind, hk, hij,
    State.pop]

theorem put_same (specs : Specs) (p : Int) (k : Str) (e : Entry) : put specs p k e p k = some e := by simp [put]

theorem put_other (specs : Specs) (p : Int) (t : Tmpl) {a b : Str} (e : Entry) (h : a ≠ b) :
    put specs p (t.pre ++ b) e p (t.pre ++ a) = specs p (t.pre ++ a) := by simp [put, h]

/-! ### literals -/

/-- **The first call decides what a literal is.** A call with a literal in it is looked up under the literal's default type.
Take a template that refuses arguments of types `l` but would take a call whose literals, typed `l` by default, can become
`fixed`. Asked for that call first, it makes an instance; asked for it after any refused call with plain arguments of types
`l`, it refuses. -/
theorem literal_order_bug (S : Solver) (t : Tmpl) (p : Int) {l fixed : List Slot} (ol : OkSlots l)
    (of : OkSlots fixed) (hno : S.ok t l = false) (hyes : S.ok t fixed = true) (hnat : S.native t fixed = false)
    (hfirst : S.first t fixed = fixed) (hfin : S.fin t fixed = fixed) :
    (∃ st, Reach S OneByOne st ∧ st.log = [⟨t, p, l, true, .inst 0⟩]) ∧
    (∃ st, Reach S OneByOne st ∧ st.log = [⟨t, p, l, false, .fail⟩, ⟨t, p, l, true, .fail⟩]) := by
  have hm := mangleTypes_eq l ol
  have hn := mangleTypes_eq fixed of
  generalize joinC (l.map text) = m at hm
  generalize joinC (fixed.map text) = n at hn
  have h0 : ∀ p k, State.init.specs p k = none := fun _ _ => rfl
  constructor
  · refine ⟨_, Reach.step (Reach.step (Reach.step (Reach.step (Reach.step (Reach.init) (e := .call t p l true false m) ⟨ol, hm⟩ rfl
      (call_miss (h0 _ _))) (e := .match_ fixed true) ⟨of, ?_⟩ trivial (match_new hn (h0 _ _))) (e := .create) ?_ trivial create_new)
      (e := .first fixed false false) ⟨of, ?_⟩ trivial (first_same hn (put_same _ _ _ _))) (e := .last fixed false) ⟨of, ?_⟩ trivial
      (last_same hn), rfl⟩
    · rintro f rest h; cases h; exact ⟨fun c => (by cases c), fun c => (by cases c)⟩
    · rintro f rest h; cases h; exact hyes
    · rintro f rest h; cases h; exact ⟨hfirst.symm, hnat.symm⟩
    · rintro f rest h; cases h; exact ⟨hfin.symm, hnat⟩
  · refine ⟨_, Reach.step (Reach.step (Reach.step (Reach.init) (e := .call t p l false false m) ⟨ol, hm⟩ rfl (call_miss (h0 _ _)))
      (e := .match_ l false) ⟨ol, ?_⟩ trivial (match_new hm (h0 _ _)))
      (e := .call t p l true false m) ⟨ol, hm⟩ rfl (call_hit (put_same _ _ _ _)), rfl⟩
    rintro f rest h; cases h; exact ⟨fun _ => rfl, fun _ => hno⟩

/-- **The compiler stops with a bug.** When the refused call with a literal has no other candidate, it is tried once more to
collect the messages; this time the types are looked at, the template accepts them, and the compiler stops with
"error path about to start solving". -/
theorem literal_crash_bug (t : Tmpl) (p : Int) {l fixed : List Slot} (ol : OkSlots l) :
    exec State.init [.call t p l false false (joinC (l.map text)), .match_ l false,
      .call t p l true false (joinC (l.map text)),
      .call t p l true true (joinC (l.map text)), .match_ fixed true, .create] = .error .bug := by
  have hm := mangleTypes_eq l ol
  generalize joinC (l.map text) = m at hm
  have h0 : ∀ p k, State.init.specs p k = none := fun _ _ => rfl
  have e1 := call_miss (t := t) (p := p) (l := l) (lit := false) (error := false) (m := m) (h0 p (t.pre ++ m))
  have e2 := match_new (insts := []) (rest := []) (log := []) (t := t) (p := p) (l := l) (lit := false) (ok := false) (m := m) hm
    (h0 p (t.pre ++ m))
  simp only [exec, e1]
  have e2' : step { State.init with frames := entering t p l false false m :: State.init.frames } (.match_ l false) =
    .ok ⟨put State.init.specs p (t.pre ++ m) .fail, [], [], [⟨t, p, l, false, .fail⟩]⟩ := e2
  rw [e2']
  simp [step, put_same]

/-! ### an instance that is gone -/

def tyA : Ty := ⟨7#32, str "A"⟩
def tyB : Ty := ⟨3#32, str "A"⟩
def tyC : Ty := ⟨1#32, str "A"⟩

/-- a solver for a function that calls itself with its argument as it is and as a copy: it takes one argument, drops `B`'s
extra tag at once, and everything but `C`'s when its body is solved -/
def demo : Solver where
  ok _ l := l == [some tyA] || l == [some tyB] || l == [some tyC]
  native _ _ := false
  first _ l := if l = [some tyB] then [some tyA] else l
  fin _ l := if l = [some tyA] ∨ l = [some tyB] then [some tyC] else norm l

theorem demo_laws : demo.Laws where
  blank := by intro t; exact ⟨rfl, rfl⟩
  first_ok := by
    intro t l h
    simp only [demo, Bool.or_eq_true, beq_iff_eq] at h
    rcases h with (h | h) | h <;> subst h <;> exact ⟨rfl, rfl⟩
  fin_ok := by
    intro t l h
    simp only [demo, Bool.or_eq_true, beq_iff_eq] at h
    rcases h with (h | h) | h <;> subst h <;> exact ⟨rfl, rfl⟩
  once := by intro t l h; cases h

theorem okA : OkSlots [some tyA] := by intro t h; simp at h; subst h; exact ⟨by decide, by decide⟩
theorem okB : OkSlots [some tyB] := by intro t h; simp at h; subst h; exact ⟨by decide, by decide⟩
theorem okC : OkSlots [some tyC] := by intro t h; simp at h; subst h; exact ⟨by decide, by decide⟩

/-- **A name left behind.** An instance in the making can be given to a nested call under a name of that call's own; if the
instance then turns out to be one that exists already, it is destroyed, and only its own names are moved. A later call under
the name left behind is given the destroyed instance. -/
theorem dangling_bug : ∃ st, Reach demo FromBodies st ∧
    ∃ d i ins, st.log.getLast? = some d ∧ d.lit = false ∧ d.result = .inst i ∧ st.insts[i]? = some ins ∧ ins.dead = true := by
  have ha := mangleTypes_eq _ okA
  have hb := mangleTypes_eq _ okB
  have hc := mangleTypes_eq _ okC
  have hab : joinC ([some tyA].map text) ≠ joinC ([some tyB].map text) := by
    intro e
    have := mangle_injective okA okB (by rw [ha, hb, e])
    revert this; decide
  have hac : joinC ([some tyA].map text) ≠ joinC ([some tyC].map text) := by
    intro e
    have := mangle_injective okA okC (by rw [ha, hc, e])
    revert this; decide
  have hbc : joinC ([some tyB].map text) ≠ joinC ([some tyC].map text) := by
    intro e
    have := mangle_injective okB okC (by rw [hb, hc, e])
    revert this; decide
  generalize joinC ([some tyA].map text) = a at ha hab hac
  generalize joinC ([some tyB].map text) = b at hb hab hbc
  generalize joinC ([some tyC].map text) = c at hc hac hbc
  let t : Tmpl := ⟨1#32, 2#32⟩
  have h0 : ∀ p k, State.init.specs p k = none := fun _ _ => rfl
  have key : ∀ x y : Str, x ≠ y → t.pre ++ x ≠ t.pre ++ y := fun x y h e => h (List.append_cancel_left e)
  have r1 := Reach.step (S := demo) (P := FromBodies) .init (e := .call t 0 [some tyA] false false a) ⟨okA, ha⟩
    (by intro f hf; cases hf) (call_miss (h0 _ _))
  have r2 := Reach.step r1 (e := .match_ [some tyA] true) ⟨okA, (by rintro f rest h; cases h; exact ⟨fun _ => rfl, fun c => (by cases c)⟩)⟩
    trivial (match_ok ha (h0 _ _))
  have r3 := Reach.step r2 (e := .create) (by rintro f rest h; cases h; rfl) trivial create_new
  have r4 := Reach.step r3 (e := .first [some tyA] false false) ⟨okA, (by rintro f rest h; cases h; exact ⟨rfl, rfl⟩)⟩ rfl
    (first_same ha (put_same _ _ _ _))
  -- from the body: the argument as it is
  have r5 := Reach.step r4 (e := .call t 0 [some tyB] false false b) ⟨okB, hb⟩
    (by intro f hf; exact (List.mem_cons.mp hf).elim (fun e => by rw [e]) (fun e => by cases e))
    (call_miss (by simp only [put]; simp [hab.symm, h0]))
  have r6 := Reach.step r5 (e := .match_ [some tyB] true) ⟨okB, (by rintro f rest h; cases h; exact ⟨fun _ => rfl, fun c => (by cases c)⟩)⟩
    trivial (match_ok hb (by simp only [put]; simp [hab.symm, h0]))
  have r7 := Reach.step r6 (e := .create) (by rintro f rest h; cases h; rfl) trivial create_new
  have r8 := Reach.step r7 (e := .first [some tyA] false false) ⟨okA, (by rintro f rest h; cases h; exact ⟨rfl, rfl⟩)⟩ rfl
    (first_other (j := 0) ha hab (put_same _ _ _ _) (by simp [put, hab, State.init]))
  -- and as a copy
  have r9 := Reach.step r8 (e := .call t 0 [some tyC] false false c) ⟨okC, hc⟩
    (by intro f hf; exact (List.mem_cons.mp hf).elim (fun e => by rw [e]) (fun e => by cases e))
    (call_miss (by simp [put, hac.symm, hbc.symm, h0]))
  have r10 := Reach.step r9 (e := .match_ [some tyC] true) ⟨okC, (by rintro f rest h; cases h; exact ⟨fun _ => rfl, fun c => (by cases c)⟩)⟩
    trivial (match_ok hc (by simp [put, hac.symm, hbc.symm, h0]))
  have r11 := Reach.step r10 (e := .create) (by rintro f rest h; cases h; rfl) trivial create_new
  have r12 := Reach.step r11 (e := .first [some tyC] false false) ⟨okC, (by rintro f rest h; cases h; exact ⟨rfl, rfl⟩)⟩ rfl
    (first_same hc (put_same _ _ _ _))
  have r13 := Reach.step r12 (e := .last [some tyC] false) ⟨okC, (by rintro f rest h; cases h; exact ⟨rfl, rfl⟩)⟩ trivial (last_same hc)
  -- the body is solved
  have r14 := Reach.step r13 (e := .last [some tyC] false) ⟨okC, (by rintro f rest h; cases h; exact ⟨rfl, rfl⟩)⟩ trivial
    (last_other (i := 0) (j := 2) hc hac.symm (by decide) (by simp [put, hac, hab, State.init]) (by simp [put, hac, hab, State.init]))
  have r15 := Reach.step r14 (e := .call t 0 [some tyB] false false b) ⟨okB, hb⟩ (by intro f hf; cases hf)
    (call_hit (pre := .inst 0) (by simp [put, hab, hbc, hac, hab.symm, State.init]))
  exact ⟨_, r15, _, 0, _, rfl, rfl, rfl, rfl, rfl⟩

/-! ### the hypotheses are met -/

/-- a solver for `fn f(a: $T, b: $T)`: the two types must be the same -/
def pairs : Solver where
  ok _ l := match l with
    | [some a, some b] => decide (a = b)
    | _ => false
  native _ _ := false
  first _ l := l
  fin _ l := norm l

theorem pairs_laws : pairs.Laws where
  blank := by intro t; exact ⟨rfl, rfl⟩
  first_ok := by intro t l h; exact ⟨h, rfl⟩
  fin_ok := by
    intro t l h
    have : norm l = l := by
      unfold norm
      split
      · simp [pairs] at h
      · rfl
    simp only [pairs] at h ⊢
    rw [this, this]
    exact ⟨h, rfl⟩
  once := by intro t l h; cases h

def tyU : Ty := ⟨7#32, str "u64"⟩
def tyI : Ty := ⟨7#32, str "i32"⟩

theorem okUI : OkSlots [some tyU, some tyI] := by
  intro t h; simp at h; rcases h with h | h <;> subst h <;> exact ⟨by decide, by decide⟩
theorem okUU : OkSlots [some tyU, some tyU] := by
  intro t h; simp at h; subst h; exact ⟨by decide, by decide⟩

/-- `fn f(a: $T, b: $T)`, with `x: u64` and `y: i32`: `f(x, 1)` is fine, and refused after `f(x, y)` was; `pairs` satisfies the laws -/
example : (∃ st, Reach pairs OneByOne st ∧ st.log = [⟨⟨1#32, 2#32⟩, 0, [some tyU, some tyI], true, .inst 0⟩]) ∧
    (∃ st, Reach pairs OneByOne st ∧
      st.log = [⟨⟨1#32, 2#32⟩, 0, [some tyU, some tyI], false, .fail⟩, ⟨⟨1#32, 2#32⟩, 0, [some tyU, some tyI], true, .fail⟩]) :=
  literal_order_bug pairs ⟨1#32, 2#32⟩ 0 okUI okUU rfl rfl rfl rfl rfl

/-- a plain call that gets an instance: what `right_instance_partial`, `right_refusal_partial`, `instances_stay_partial` and
`isolated` are about -/
example : ∃ st, Reach pairs OneByOne st ∧ Reach pairs FromBodies st ∧ Reach pairs NoDirty st ∧
    st.log = [⟨⟨1#32, 2#32⟩, 0, [some tyU, some tyU], false, .inst 0⟩] := by
  have hm := mangleTypes_eq _ okUU
  generalize joinC ([some tyU, some tyU].map text) = m at hm
  have h0 : ∀ p k, State.init.specs p k = none := fun _ _ => rfl
  have hR : ∀ P : State → Ev → Prop, (∀ st e, st.frames = [] ∨ (∀ t p l a b m, e ≠ .call t p l a b m) → (∀ s n d, e = .first s n d → d = false) →
      (∀ s d, e = .last s d → d = false) → P st e) →
      Reach pairs P ⟨put (put State.init.specs 0 (Tmpl.pre ⟨1#32, 2#32⟩ ++ m) .fail) 0 (Tmpl.pre ⟨1#32, 2#32⟩ ++ m) (.inst 0),
        finish ([] ++ [⟨⟨1#32, 2#32⟩, 0, [some tyU, some tyU], false, none⟩]) 0 [some tyU, some tyU], [],
        [] ++ [⟨⟨1#32, 2#32⟩, 0, [some tyU, some tyU], false, .inst 0⟩]⟩ := by
    intro P hP
    refine Reach.step (Reach.step (Reach.step (Reach.step (Reach.step .init (e := .call ⟨1#32, 2#32⟩ 0 [some tyU, some tyU] false false m)
      ⟨okUU, hm⟩ ?_ (call_miss (h0 _ _))) (e := .match_ [some tyU, some tyU] true) ⟨okUU, ?_⟩ ?_ (match_new hm (h0 _ _)))
      (e := .create) ?_ ?_ create_new) (e := .first [some tyU, some tyU] false false) ⟨okUU, ?_⟩ ?_
      (first_same hm (put_same _ _ _ _))) (e := .last [some tyU, some tyU] false) ⟨okUU, ?_⟩ ?_ (last_same hm)
    all_goals first
      | (apply hP
         · first
           | (left; rfl)
           | (right; intro _ _ _ _ _ _ h; cases h)
         · intro _ _ _ h; cases h <;> rfl
         · intro _ _ h; cases h <;> rfl)
      | (rintro f rest h; cases h; exact ⟨fun _ => rfl, fun c => (by cases c)⟩)
      | (rintro f rest h; cases h; exact ⟨rfl, rfl⟩)
      | (rintro f rest h; cases h; rfl)
  refine ⟨_, hR OneByOne ?_, hR FromBodies ?_, hR NoDirty ?_, rfl⟩
  · intro st e h1 _ _
    cases e <;> try trivial
    rcases h1 with h | h
    · exact h
    · exact absurd rfl (h _ _ _ _ _ _)
  · intro st e h1 h2 _
    cases e <;> try trivial
    · rcases h1 with h | h
      · intro f hf; rw [h] at hf; cases hf
      · exact absurd rfl (h _ _ _ _ _ _)
    · exact h2 _ _ _ rfl
  · intro st e _ h2 h3
    cases e <;> try trivial
    · exact h2 _ _ _ rfl
    · exact h3 _ _ rfl

/-- `f(x, y, ...)` with the arguments given by name in the other order, the second converted, one left out, and two rest arguments -/
example : (Site.mk [tyI, tyU, tyA, tyA] (some [1, 0, -1, 2, 3]) [none, some tyU] 3 (some tyC)).Types
    [some tyU, some tyU, none, some tyC] := by
  refine ⟨[some tyU, some tyU, none], rfl, ?_, .inr ⟨by decide, tyC, rfl, rfl⟩⟩
  intro i hi
  match i, hi with
  | 0, _ => exact .inr ⟨.named (j := 1) rfl rfl rfl, fun t h => by cases h⟩
  | 1, _ => exact .inl ⟨_, tyU, .named (j := 0) rfl rfl rfl, rfl, rfl⟩
  | 2, _ => exact .inr ⟨.missing (j := -1) rfl rfl (by decide), fun t h => by cases h⟩

end Verif.SpecCache
