import Verif.SpecCacheSpec
/-! # C96: the book-keeping of the cache -/
namespace Verif.SpecCache
open Verif

abbrev Specs := Int → Str → Option Entry

def putAll (specs : Specs) (p : Int) (ms : List Str) (e : Entry) : Specs :=
  fun p' k' => if p' = p ∧ k' ∈ ms then some e else specs p' k'

theorem putAll_own {specs : Specs} {p : Int} {ms : List Str} {e : Entry} (h : ∀ m ∈ ms, specs p m = some e) :
    putAll specs p ms e = specs := by
  funext p' k'
  unfold putAll
  split
  · rename_i hc
    obtain ⟨h1, h2⟩ := hc
    subst h1
    rw [h _ h2]
  · rfl

theorem putAll_putAll (specs : Specs) (p : Int) (ms : List Str) (e e' : Entry) :
    putAll (putAll specs p ms e) p ms e' = putAll specs p ms e' := by
  funext p' k'
  unfold putAll
  split <;> rfl

theorem setAll_eq (p : Int) (spec cur : Entry) (allow : Bool) (hc : cur = .fail ∨ allow = true) (ms : List Str) (specs : Specs)
    (h : ∀ m ∈ ms, specs p m = some cur) (hn : ms.Nodup) : setAll p spec allow ms specs = .ok (putAll specs p ms spec) := by
  induction ms generalizing specs with
  | nil =>
    simp only [setAll]
    congr 1
    funext p' k'
    simp [putAll]
  | cons m ms ih =>
    have hm := h m (List.mem_cons_self ..)
    have hset : setSpec specs p m spec false allow = .ok (put specs p m spec) := by
      unfold setSpec
      rw [hm]
      have : ((Option.isNone (some cur) == false) && (Option.isNone (some cur) || some cur == some Entry.fail || allow)) = true := by
        rcases hc with rfl | rfl
        · simp
        · simp
      dsimp only
      rw [if_pos this]
    simp only [setAll, hset, Bind.bind, Except.bind]
    rw [List.nodup_cons] at hn
    rw [ih (put specs p m spec) ?_ hn.2]
    · congr 1
      funext p' k'
      unfold putAll put
      by_cases hp : p' = p
      · by_cases hk : k' = m
        · simp [hp, hk]
        · simp [hp, hk]
      · simp [hp]
    · intro x hx
      have hne : x ≠ m := fun e => hn.1 (e ▸ hx)
      unfold put
      rw [if_neg (fun c => hne c.2)]
      exact h x (List.mem_cons_of_mem _ hx)

/-- the frame's names are bound to what the frame says -/
def Owns (specs : Specs) (f : Frame) : Prop := f.mangles.Nodup ∧ ∀ m ∈ f.mangles, specs f.parent m = some f.current

theorem resetSpec_eq {specs : Specs} {f : Frame} (ho : Owns specs f) (spec : Entry) (allow : Bool)
    (hc : f.current = .fail ∨ allow = true ∨ f.current = spec) :
    resetSpec specs f spec allow = .ok (putAll specs f.parent f.mangles spec, { f with current := spec }) := by
  unfold resetSpec
  by_cases h : spec = f.current
  · rw [if_pos h]
    subst h
    rw [putAll_own ho.2]
  · rw [if_neg h]
    have hc' : f.current = .fail ∨ allow = true := by
      rcases hc with h1 | h1 | h1
      · exact .inl h1
      · exact .inr h1
      · exact absurd h1.symm h
    rw [setAll_eq f.parent spec f.current allow hc' f.mangles specs ho.2 ho.1]

def kill (insts : List Inst) : Entry → List Inst
  | .fail => insts
  | .inst i => destroy insts i

/-- what `resetMangle(args)` comes to, for a frame that owns its names -/
theorem resetArgs_spec {specs : Specs} {insts : List Inst} {f : Frame} (ho : Owns specs f) {x : Str}
    (hpre : f.mangle = f.tmpl.pre ++ x) {args : List Slot} {allow : Bool} (hc : f.current = .fail ∨ allow = true)
    {m : Str} (hm : mangleTypes args = .ok m) :
    (f.tmpl.pre ++ m ∉ f.mangles ∧ ∃ pre, specs f.parent (f.tmpl.pre ++ m) = some pre ∧
      resetArgs specs insts f args allow =
        .ok (putAll specs f.parent f.mangles pre, kill insts f.current, { f with current := pre }, some pre)) ∨
    (∃ ms, f.tmpl.pre ++ m ∈ ms ∧ ms.Nodup ∧
      (∀ y ∈ ms, y ∈ f.mangles ∨ (y = f.tmpl.pre ++ m ∧ specs f.parent y = none)) ∧ (∀ y ∈ f.mangles, y ∈ ms) ∧
      resetArgs specs insts f args allow =
        .ok (putAll specs f.parent ms f.current, insts, { f with mangles := ms }, none)) := by
  unfold resetArgs
  rw [hm]
  dsimp only
  have hpf : prefixOf f.mangle = f.tmpl.pre := by rw [hpre, prefixOf_pre]
  rw [hpf]
  unfold resetMangle
  by_cases hk : f.tmpl.pre ++ m ∈ f.mangles
  · right
    refine ⟨f.mangles, hk, ho.1, fun y hy => .inl hy, fun y hy => hy, ?_⟩
    rw [if_pos hk, putAll_own ho.2]
  · rw [if_neg hk]
    cases hs : specs f.parent (f.tmpl.pre ++ m) with
    | some pre =>
      left
      refine ⟨hk, pre, rfl, ?_⟩
      dsimp only
      rw [resetSpec_eq ho pre allow (by rcases hc with h | h; exact .inl h; exact .inr (.inl h))]
      dsimp only
      cases f.current <;> rfl
    | none =>
      right
      refine ⟨(f.tmpl.pre ++ m) :: f.mangles, List.mem_cons_self .., List.nodup_cons.mpr ⟨hk, ho.1⟩, ?_, ?_, ?_⟩
      · intro y hy
        rcases List.mem_cons.mp hy with e | e
        · exact .inr ⟨e, by rw [e, hs]⟩
        · exact .inl e
      · intro y hy; exact List.mem_cons_of_mem _ hy
      · dsimp only
        have : setSpec specs f.parent (f.tmpl.pre ++ m) f.current true false =
            .ok (put specs f.parent (f.tmpl.pre ++ m) f.current) := by
          unfold setSpec; rw [hs]; rfl
        rw [this]
        dsimp only
        have e : put specs f.parent (f.tmpl.pre ++ m) f.current = putAll specs f.parent ((f.tmpl.pre ++ m) :: f.mangles) f.current := by
          funext p' k'
          unfold put putAll
          by_cases hp : p' = f.parent
          · by_cases hk' : k' = f.tmpl.pre ++ m
            · simp [hp, hk']
            · by_cases hk2 : k' ∈ f.mangles
              · simp [hp, hk', hk2, ho.2 _ hk2]
              · simp [hp, hk', hk2]
          · simp [hp]
        rw [e]

/-- what the end of `updateScope` comes to -/
theorem publish_spec {st : State} {f : Frame} (ho : Owns st.specs f) {x : Str} (hpre : f.mangle = f.tmpl.pre ++ x)
    {sig : List Slot} {b : Bool} (hc : f.current = .fail ∨ b = true) (hcur : f.current = .fail ∨ f.current = .inst f.target)
    {m : Str} (hm : mangleTypes sig = .ok m) :
    (f.tmpl.pre ++ m ∉ f.mangles ∧ ∃ pre, st.specs f.parent (f.tmpl.pre ++ m) = some pre ∧
      publish st f sig b =
        .ok ({ st with specs := putAll st.specs f.parent f.mangles pre, insts := kill st.insts f.current },
          { f with current := pre }, some pre)) ∨
    (∃ ms, f.tmpl.pre ++ m ∈ ms ∧ ms.Nodup ∧
      (∀ y ∈ ms, y ∈ f.mangles ∨ (y = f.tmpl.pre ++ m ∧ st.specs f.parent y = none)) ∧ (∀ y ∈ f.mangles, y ∈ ms) ∧
      publish st f sig b =
        .ok ({ st with specs := putAll st.specs f.parent ms (.inst f.target) },
          { f with mangles := ms, current := .inst f.target }, none)) := by
  unfold publish
  rcases resetArgs_spec (insts := st.insts) ho hpre hc hm with ⟨h1, pre, h2, h3⟩ | ⟨ms, h1, h2, h3, h4, h5⟩
  · left
    refine ⟨h1, pre, h2, ?_⟩
    rw [h3]
  · right
    refine ⟨ms, h1, h2, h3, h4, ?_⟩
    rw [h5]
    dsimp only
    have ho' : Owns (putAll st.specs f.parent ms f.current) { f with mangles := ms } := by
      refine ⟨h2, ?_⟩
      intro y hy
      show putAll st.specs f.parent ms f.current f.parent y = _
      unfold putAll
      rw [if_pos ⟨rfl, hy⟩]
    rw [resetSpec_eq ho' (.inst f.target) false (by rcases hcur with h | h; exact .inl h; exact .inr (.inr h))]
    dsimp only
    rw [putAll_putAll]

/-! ### the invariant of every history -/

def HasTarget (f : Frame) : Prop := f.phase = .created ∨ f.phase = .solving

/-- what is known of a running `doTrySpecialize` -/
structure FrameOk (specs : Specs) (insts : List Inst) (f : Frame) : Prop where
  owns : Owns specs f
  pre : ∃ x, f.mangle = f.tmpl.pre ++ x
  names : ∀ m ∈ f.mangles, ∃ x, m = f.tmpl.pre ++ x
  entered : f.phase = .entered → f.mangles = []
  early : f.phase ≠ .solving → f.current = .fail
  cur : f.current = .fail ∨ f.current = .inst f.target
  target : HasTarget f → ∃ fin, insts[f.target]? = some ⟨f.tmpl, f.parent, f.made, false, fin⟩
  err : f.error = true → f.phase = .entered ∨ f.phase = .matched
  quiet : f.error = true → f.mangles = []

structure Inv (st : State) : Prop where
  frames : ∀ f ∈ st.frames, FrameOk st.specs st.insts f
  disj : st.frames.Pairwise fun f g => f.parent = g.parent → ∀ m ∈ f.mangles, m ∉ g.mangles
  targets : st.frames.Pairwise fun f g => HasTarget f → HasTarget g → f.target ≠ g.target
  entry : ∀ p k i, st.specs p k = some (.inst i) → ∃ ins, st.insts[i]? = some ins ∧ ins.parent = p ∧ ∃ x, k = ins.tmpl.pre ++ x
  log : ∀ d ∈ st.log, ∀ i, d.result = .inst i → ∃ ins, st.insts[i]? = some ins ∧ ins.tmpl = d.tmpl ∧ ins.parent = d.parent

theorem Inv.init : Inv State.init where
  frames := by intro f hf; cases hf
  disj := List.Pairwise.nil
  targets := List.Pairwise.nil
  entry := by intro p k i h; cases h
  log := by intro d hd; cases hd

/-- instances keep what they were made from -/
def Keeps (a b : List Inst) : Prop :=
  ∀ (i : Nat) (x : Inst), a[i]? = some x → ∃ y, b[i]? = some y ∧ y.tmpl = x.tmpl ∧ y.parent = x.parent ∧ y.made = x.made

theorem Keeps.refl (a : List Inst) : Keeps a a := fun _ x h => ⟨x, h, rfl, rfl, rfl⟩

theorem keeps_modify (a : List Inst) (i : Nat) (g : Inst → Inst)
    (hg : ∀ x, (g x).tmpl = x.tmpl ∧ (g x).parent = x.parent ∧ (g x).made = x.made) : Keeps a (a.modify i g) := by
  intro j x h
  rw [List.getElem?_modify, h]
  by_cases e : i = j
  · simp only [e, if_true]
    exact ⟨g x, rfl, (hg x).1, (hg x).2.1, (hg x).2.2⟩
  · simp only [e, if_false]
    exact ⟨x, rfl, rfl, rfl, rfl⟩

theorem keeps_kill (a : List Inst) (e : Entry) : Keeps a (kill a e) := by
  cases e with
  | fail => exact Keeps.refl a
  | inst i => exact keeps_modify a i _ (fun x => ⟨rfl, rfl, rfl⟩)

theorem keeps_finish (a : List Inst) (i : Nat) (sig : List Slot) : Keeps a (finish a i sig) :=
  keeps_modify a i _ (fun x => ⟨rfl, rfl, rfl⟩)

theorem keeps_append (a b : List Inst) : Keeps a (a ++ b) := by
  intro i x h
  obtain ⟨hl, _⟩ := List.getElem?_eq_some_iff.mp h
  exact ⟨x, by rw [List.getElem?_append_left hl]; exact h, rfl, rfl, rfl⟩

theorem Keeps.trans {a b c : List Inst} (h1 : Keeps a b) (h2 : Keeps b c) : Keeps a c := by
  intro i x h
  obtain ⟨y, hy, a1, a2, a3⟩ := h1 i x h
  obtain ⟨z, hz, b1, b2, b3⟩ := h2 i y hy
  exact ⟨z, hz, by rw [b1, a1], by rw [b2, a2], by rw [b3, a3]⟩

/-- the part of the invariant that does not mention the top frame survives a change to names the top frame owns or takes, and
to its own instance -/
structure Rest (specs : Specs) (insts : List Inst) (rest : List Frame) (log : List Done) : Prop where
  frames : ∀ g ∈ rest, FrameOk specs insts g
  disj : rest.Pairwise fun f g => f.parent = g.parent → ∀ m ∈ f.mangles, m ∉ g.mangles
  targets : rest.Pairwise fun f g => HasTarget f → HasTarget g → f.target ≠ g.target
  entry : ∀ p k i, specs p k = some (.inst i) → ∃ ins, insts[i]? = some ins ∧ ins.parent = p ∧ ∃ x, k = ins.tmpl.pre ++ x
  log : ∀ d ∈ log, ∀ i, d.result = .inst i → ∃ ins, insts[i]? = some ins ∧ ins.tmpl = d.tmpl ∧ ins.parent = d.parent

theorem rest_update {st : State} {f : Frame} {rest : List Frame} (hi : Inv st) (hf : st.frames = f :: rest)
    (ms : List Str) (e : Entry) (insts : List Inst) (hk : Keeps st.insts insts)
    (hms : ∀ y ∈ ms, y ∈ f.mangles ∨ ((∃ x, y = f.tmpl.pre ++ x) ∧ st.specs f.parent y = none))
    (hother : ∀ g ∈ rest, HasTarget g → insts[g.target]? = st.insts[g.target]?)
    (he : ∀ i, e = .inst i → ∃ ins, st.insts[i]? = some ins ∧ ins.parent = f.parent ∧ ins.tmpl = f.tmpl) :
    Rest (putAll st.specs f.parent ms e) insts rest st.log where
  frames := by
    intro g hg
    have hgo := hi.frames g (by rw [hf]; exact List.mem_cons_of_mem _ hg)
    refine ⟨⟨hgo.owns.1, ?_⟩, hgo.pre, hgo.names, hgo.entered, hgo.early, hgo.cur, ?_, hgo.err, hgo.quiet⟩
    · intro m hm
      unfold putAll
      rw [if_neg]
      · exact hgo.owns.2 m hm
      · rintro ⟨hp, hmm⟩
        rcases hms m hmm with h | ⟨_, h⟩
        · have hd := hi.disj
          rw [hf] at hd
          exact (List.pairwise_cons.mp hd).1 g hg hp.symm m h hm
        · have := hgo.owns.2 m hm
          rw [hp, h] at this
          cases this
    · intro ht
      rw [hother g hg ht]
      exact hgo.target ht
  disj := by have := hi.disj; rw [hf] at this; exact (List.pairwise_cons.mp this).2
  targets := by have := hi.targets; rw [hf] at this; exact (List.pairwise_cons.mp this).2
  entry := by
    intro p k i h
    unfold putAll at h
    split at h
    · rename_i hc
      obtain ⟨hp, hkk⟩ := hc
      injection h with h
      obtain ⟨ins, h1, h2, h3⟩ := he i h
      obtain ⟨y, hy, a1, a2, a3⟩ := hk i ins h1
      refine ⟨y, hy, by rw [a2, h2, hp], ?_⟩
      rw [a1, h3]
      rcases hms k hkk with h4 | ⟨h4, _⟩
      · exact (hi.frames f (by rw [hf]; exact List.mem_cons_self ..)).names k h4
      · exact h4
    · obtain ⟨ins, h1, h2, x, h3⟩ := hi.entry p k i h
      obtain ⟨y, hy, a1, a2, a3⟩ := hk i ins h1
      exact ⟨y, hy, by rw [a2, h2], x, by rw [a1, h3]⟩
  log := by
    intro d hd i h
    obtain ⟨ins, h1, h2, h3⟩ := hi.log d hd i h
    obtain ⟨y, hy, a1, a2, a3⟩ := hk i ins h1
    exact ⟨y, hy, by rw [a1, h2], by rw [a2, h3]⟩

theorem Rest.insts {specs : Specs} {a b : List Inst} {rest : List Frame} {log : List Done} (h : Rest specs a rest log)
    (hk : Keeps a b) (hother : ∀ g ∈ rest, HasTarget g → b[g.target]? = a[g.target]?) : Rest specs b rest log where
  frames := by
    intro g hg
    have hgo := h.frames g hg
    exact ⟨hgo.owns, hgo.pre, hgo.names, hgo.entered, hgo.early, hgo.cur,
      fun ht => by rw [hother g hg ht]; exact hgo.target ht, hgo.err, hgo.quiet⟩
  disj := h.disj
  targets := h.targets
  entry := by
    intro p k i hh
    obtain ⟨ins, h1, h2, x, h3⟩ := h.entry p k i hh
    obtain ⟨y, hy, a1, a2, a3⟩ := hk i ins h1
    exact ⟨y, hy, by rw [a2, h2], x, by rw [a1, h3]⟩
  log := by
    intro d hd i hh
    obtain ⟨ins, h1, h2, h3⟩ := h.log d hd i hh
    obtain ⟨y, hy, a1, a2, a3⟩ := hk i ins h1
    exact ⟨y, hy, by rw [a1, h2], by rw [a2, h3]⟩

/-- a frame leaves with a result -/
theorem Rest.popped {specs : Specs} {insts : List Inst} {rest : List Frame} {log : List Done} (h : Rest specs insts rest log)
    (d : Done) (hd : ∀ i, d.result = .inst i → ∃ ins, insts[i]? = some ins ∧ ins.tmpl = d.tmpl ∧ ins.parent = d.parent) :
    Inv ⟨specs, insts, rest, log ++ [d]⟩ where
  frames := h.frames
  disj := h.disj
  targets := h.targets
  entry := h.entry
  log := by
    intro d' hd' i hi
    rcases List.mem_append.mp hd' with h1 | h1
    · exact h.log d' h1 i hi
    · rw [List.mem_singleton] at h1
      rw [h1] at hi ⊢
      exact hd i hi

/-- a frame stays -/
theorem Rest.stays {specs : Specs} {insts : List Inst} {rest : List Frame} {log : List Done} (h : Rest specs insts rest log)
    (f : Frame) (hf : FrameOk specs insts f)
    (hd : ∀ g ∈ rest, f.parent = g.parent → ∀ m ∈ f.mangles, m ∉ g.mangles)
    (ht : ∀ g ∈ rest, HasTarget f → HasTarget g → f.target ≠ g.target) : Inv ⟨specs, insts, f :: rest, log⟩ where
  frames := by
    intro g hg
    rcases List.mem_cons.mp hg with e | e
    · rw [e]; exact hf
    · exact h.frames g e
  disj := List.pairwise_cons.mpr ⟨hd, h.disj⟩
  targets := List.pairwise_cons.mpr ⟨ht, h.targets⟩
  entry := h.entry
  log := h.log

theorem disj_ms {st : State} {f : Frame} {rest : List Frame} (hi : Inv st) (hf : st.frames = f :: rest) {ms : List Str}
    {k : Str} (hms : ∀ y ∈ ms, y ∈ f.mangles ∨ (y = k ∧ st.specs f.parent y = none)) :
    ∀ g ∈ rest, f.parent = g.parent → ∀ m ∈ ms, m ∉ g.mangles := by
  intro g hg hp m hm hmg
  rcases hms m hm with h | ⟨_, h⟩
  · have hd := hi.disj
    rw [hf] at hd
    exact (List.pairwise_cons.mp hd).1 g hg hp m h hmg
  · have := (hi.frames g (by rw [hf]; exact List.mem_cons_of_mem _ hg)).owns.2 m hmg
    rw [← hp, h] at this
    cases this

theorem target_ne {st : State} {f : Frame} {rest : List Frame} (hi : Inv st) (hf : st.frames = f :: rest) :
    ∀ g ∈ rest, HasTarget f → HasTarget g → f.target ≠ g.target := by
  have := hi.targets
  rw [hf] at this
  exact (List.pairwise_cons.mp this).1

theorem modify_other (a : List Inst) {i j : Nat} (h : i ≠ j) (g : Inst → Inst) : (a.modify i g)[j]? = a[j]? := by
  rw [List.getElem?_modify]
  simp [h]

/-- **An invariant of every history.** -/
theorem step_inv {st st' : State} {ev : Ev} (hi : Inv st) (h : step st ev = .ok st') : Inv st' := by
  cases ev with
  | call tmpl parent slots lit error mangle =>
    simp only [step] at h
    have henter : Inv { st with frames := ⟨parent, tmpl, slots, lit, error, tmpl.pre ++ mangle, .entered, [], .fail, [], 0⟩ :: st.frames } := by
      refine ⟨?_, ?_, ?_, hi.entry, hi.log⟩
      · intro g hg
        rcases List.mem_cons.mp hg with e | e
        · rw [e]
          refine ⟨⟨List.nodup_nil, by intro m hm; cases hm⟩, ⟨mangle, rfl⟩, (by intro m hm; cases hm), fun _ => rfl, fun _ => rfl,
            .inl rfl, ?_, fun _ => .inl rfl, fun _ => rfl⟩
          rintro (h | h) <;> cases h
        · exact hi.frames g e
      · exact List.pairwise_cons.mpr ⟨fun g _ _ m hm => (by cases hm), hi.disj⟩
      · refine List.pairwise_cons.mpr ⟨?_, hi.targets⟩
        rintro g _ (h | h) <;> cases h
    cases hs : st.specs parent (tmpl.pre ++ mangle) with
    | none => rw [hs] at h; injection h with h; rw [← h]; exact henter
    | some pre =>
      rw [hs] at h
      dsimp only at h
      by_cases hb : (decide (pre ≠ Entry.fail) || !error) = true
      · rw [if_pos hb] at h
        injection h with h
        rw [← h]
        refine ⟨hi.frames, hi.disj, hi.targets, hi.entry, ?_⟩
        intro d hd i hr
        rcases List.mem_append.mp hd with h1 | h1
        · exact hi.log d h1 i hr
        · rw [List.mem_singleton] at h1
          subst h1
          dsimp only at hr ⊢
          rw [hr] at hs
          obtain ⟨ins, h1, h2, x, h3⟩ := hi.entry _ _ _ hs
          exact ⟨ins, h1, (pre_inj h3).1.symm, h2⟩
      · rw [if_neg hb] at h
        injection h with h; rw [← h]; exact henter
  | match_ fixed ok =>
    simp only [step] at h
    cases hf : st.frames with
    | nil => rw [hf] at h; cases h
    | cons f rest =>
      rw [hf] at h
      dsimp only at h
      have hfo := hi.frames f (by rw [hf]; exact List.mem_cons_self ..)
      by_cases hp : f.phase ≠ .entered
      · rw [if_pos hp] at h; cases h
      · rw [if_neg hp] at h
        have hp : f.phase = .entered := Decidable.not_not.mp hp
        have hcf : f.current = .fail := hfo.early (by rw [hp]; decide)
        have hR := rest_update hi hf f.mangles .fail st.insts (Keeps.refl _) (fun y hy => .inl hy) (fun _ _ _ => rfl)
          (by intro i e; cases e)
        rw [putAll_own (by rw [← hcf]; exact hfo.owns.2)] at hR
        by_cases herr : f.error = true
        · rw [if_pos herr] at h
          cases ok with
          | true =>
            rw [if_pos rfl] at h
            injection h with h
            rw [← h]
            refine hR.stays _ ?_ (disj_ms hi hf (k := []) (fun y hy => .inl hy)) ?_
            · exact ⟨hfo.owns, hfo.pre, hfo.names, fun e => (by cases e), fun _ => hcf, .inl hcf,
                (by rintro (e | e) <;> cases e), fun _ => .inr rfl, hfo.quiet⟩
            · rintro g _ (e | e) <;> cases e
          | false =>
            rw [if_neg (by decide)] at h
            injection h with h
            rw [← h]
            unfold State.pop
            try rw [hf]
            exact hR.popped _ (by intro i e; cases e)
        · rw [if_neg herr] at h
          obtain ⟨x, hx⟩ := hfo.pre
          cases hm : mangleTypes fixed with
          | error e => simp [resetArgs, hm] at h
          | ok m =>
            rcases resetArgs_spec (insts := st.insts) (allow := false) hfo.owns hx (.inl hcf) hm with
              ⟨h1, pre, h2, h3⟩ | ⟨ms, h1, h2, h3, h4, h5⟩
            · rw [h3] at h
              dsimp only at h
              injection h with h
              rw [← h]
              unfold State.pop
              dsimp only
              try rw [hf]
              have hpre : ∀ i, pre = .inst i → ∃ ins, st.insts[i]? = some ins ∧ ins.parent = f.parent ∧ ins.tmpl = f.tmpl := by
                intro i e
                rw [e] at h2
                obtain ⟨ins, a1, a2, y, a3⟩ := hi.entry _ _ _ h2
                exact ⟨ins, a1, a2, (pre_inj a3).1.symm⟩
              have hkill : kill st.insts f.current = st.insts := by rw [hcf]; rfl
              rw [hkill]
              exact (rest_update hi hf f.mangles pre st.insts (Keeps.refl _) (fun y hy => .inl hy) (fun _ _ _ => rfl) hpre).popped _
                (by intro i e; obtain ⟨ins, a1, a2, a3⟩ := hpre i e; exact ⟨ins, a1, a3, a2⟩)
            · rw [h5] at h
              dsimp only at h
              have hR2 := rest_update hi hf ms .fail st.insts (Keeps.refl _)
                (fun y hy => by
                  rcases h3 y hy with a | ⟨a, b⟩
                  · exact .inl a
                  · exact .inr ⟨⟨m, a⟩, b⟩) (fun _ _ _ => rfl) (by intro i e; cases e)
              rw [hcf] at h
              have hown : Owns (putAll st.specs f.parent ms .fail) { f with mangles := ms, current := .fail } := by
                refine ⟨h2, ?_⟩
                intro y hy
                show putAll st.specs f.parent ms .fail f.parent y = some .fail
                unfold putAll
                rw [if_pos ⟨rfl, hy⟩]
              cases ok with
              | true =>
                rw [if_pos rfl] at h
                injection h with h
                rw [← h]
                refine hR2.stays _ ?_ (disj_ms hi hf h3) ?_
                · refine ⟨?_, hfo.pre, ?_, fun e => (by cases e), fun _ => rfl, .inl rfl,
                    (by rintro (e | e) <;> cases e), fun _ => .inr rfl, fun e => absurd e herr⟩
                  · exact hown
                  · intro y hy
                    rcases h3 y hy with a | ⟨a, b⟩
                    · exact hfo.names y a
                    · exact ⟨m, a⟩
                · rintro g _ (e | e) <;> cases e
              | false =>
                rw [if_neg (by decide)] at h
                rw [resetSpec_eq hown .fail false (.inl rfl)] at h
                dsimp only at h
                injection h with h
                rw [← h]
                unfold State.pop
                dsimp only
                try rw [hf]
                rw [putAll_putAll]
                exact hR2.popped _ (by intro i e; cases e)
  | reject =>
    simp only [step] at h
    cases hf : st.frames with
    | nil => rw [hf] at h; cases h
    | cons f rest =>
      rw [hf] at h
      dsimp only at h
      have hfo := hi.frames f (by rw [hf]; exact List.mem_cons_self ..)
      by_cases hp : f.phase ≠ .matched
      · rw [if_pos hp] at h; cases h
      · rw [if_neg hp] at h
        have hp : f.phase = .matched := Decidable.not_not.mp hp
        have hcf : f.current = .fail := hfo.early (by rw [hp]; decide)
        have hR := rest_update hi hf f.mangles .fail st.insts (Keeps.refl _) (fun y hy => .inl hy) (fun _ _ _ => rfl)
          (by intro i e; cases e)
        by_cases herr : f.error = true
        · rw [if_pos herr] at h
          injection h with h
          rw [← h]
          unfold State.pop
          try rw [hf]
          rw [putAll_own (by rw [← hcf]; exact hfo.owns.2)] at hR
          exact hR.popped _ (by intro i e; cases e)
        · rw [if_neg herr, resetSpec_eq hfo.owns .fail false (.inl hcf)] at h
          dsimp only at h
          injection h with h
          rw [← h]
          unfold State.pop
          dsimp only
          try rw [hf]
          exact hR.popped _ (by intro i e; cases e)
  | create =>
    simp only [step] at h
    cases hf : st.frames with
    | nil => rw [hf] at h; cases h
    | cons f rest =>
      rw [hf] at h
      dsimp only at h
      have hfo := hi.frames f (by rw [hf]; exact List.mem_cons_self ..)
      by_cases hp : f.phase ≠ .matched
      · rw [if_pos hp] at h; cases h
      · rw [if_neg hp] at h
        have hp : f.phase = .matched := Decidable.not_not.mp hp
        have hcf : f.current = .fail := hfo.early (by rw [hp]; decide)
        by_cases herr : f.error = true
        · rw [if_pos herr] at h; cases h
        · rw [if_neg herr] at h
          injection h with h
          rw [← h]
          have hlt : ∀ g ∈ rest, HasTarget g → g.target < st.insts.length := by
            intro g hg ht
            obtain ⟨_, e⟩ := (hi.frames g (by rw [hf]; exact List.mem_cons_of_mem _ hg)).target ht
            exact (List.getElem?_eq_some_iff.mp e).1
          have hR := rest_update hi hf f.mangles .fail (st.insts ++ [⟨f.tmpl, f.parent, f.made, false, none⟩])
            (keeps_append _ _) (fun y hy => .inl hy)
            (by
              intro g hg ht
              rw [List.getElem?_append_left (hlt g hg ht)])
            (by intro i e; cases e)
          rw [putAll_own (by rw [← hcf]; exact hfo.owns.2)] at hR
          refine hR.stays _ ?_ (disj_ms hi hf (k := []) (fun y hy => .inl hy)) ?_
          · refine ⟨hfo.owns, hfo.pre, hfo.names, fun e => (by cases e), fun _ => hcf, .inl hcf, ?_,
              fun e => absurd e herr, fun e => absurd e herr⟩
            intro _
            exact ⟨none, by simp⟩
          · intro g hg _ ht
            have := hlt g hg ht
            show st.insts.length ≠ g.target
            omega
  | first sig native dirty =>
    simp only [step] at h
    cases hf : st.frames with
    | nil => rw [hf] at h; cases h
    | cons f rest =>
      rw [hf] at h
      dsimp only at h
      have hfo := hi.frames f (by rw [hf]; exact List.mem_cons_self ..)
      by_cases hp : f.phase ≠ .created
      · rw [if_pos hp] at h; cases h
      · rw [if_neg hp] at h
        have hp : f.phase = .created := Decidable.not_not.mp hp
        have hht : HasTarget f := .inl hp
        have hcf : f.current = .fail := hfo.early (by rw [hp]; decide)
        have herr : f.error ≠ true := by
          intro e
          rcases hfo.err e with h | h <;> rw [hp] at h <;> cases h
        obtain ⟨fin, htgt⟩ := hfo.target hht
        have htne := target_ne hi hf
        have hfin : ∀ (b : List Inst), Keeps st.insts b → ∀ sig, ∃ ins, (finish b f.target sig)[f.target]? = some ins ∧
            ins.tmpl = f.tmpl ∧ ins.parent = f.parent := by
          intro b hb sig
          obtain ⟨y, hy, a1, a2, a3⟩ := (hb.trans (keeps_finish b f.target sig)) _ _ htgt
          exact ⟨y, hy, a1, a2⟩
        by_cases hd : dirty = true
        · rw [if_pos hd] at h
          have hR := rest_update hi hf f.mangles .fail st.insts (Keeps.refl _) (fun y hy => .inl hy) (fun _ _ _ => rfl)
            (by intro i e; cases e)
          rw [putAll_own (by rw [← hcf]; exact hfo.owns.2)] at hR
          cases native with
          | true =>
            rw [if_pos rfl] at h
            injection h with h
            rw [← h]
            unfold State.pop
            dsimp only
            try rw [hf]
            refine (hR.insts (keeps_finish _ _ _) ?_).popped _ ?_
            · intro g hg ht
              exact modify_other _ (htne g hg hht ht) _
            · intro i e
              injection e with e
              rw [← e]
              exact hfin _ (Keeps.refl _) _
          | false =>
            rw [if_neg (by decide)] at h
            injection h with h
            rw [← h]
            refine hR.stays _ ?_ (disj_ms hi hf (k := []) (fun y hy => .inl hy)) ?_
            · exact ⟨hfo.owns, hfo.pre, hfo.names, fun e => (by cases e), fun _ => hcf, .inl hcf,
                fun _ => hfo.target hht, fun e => absurd e herr, fun e => absurd e herr⟩
            · intro g hg _ ht
              exact htne g hg hht ht
        · rw [if_neg hd] at h
          obtain ⟨x, hx⟩ := hfo.pre
          cases hm : mangleTypes sig with
          | error e => simp [publish, resetArgs, hm] at h
          | ok m =>
            rcases publish_spec (b := native) hfo.owns hx (.inl hcf) hfo.cur hm with ⟨h1, pre, h2, h3⟩ | ⟨ms, h1, h2, h3, h4, h5⟩
            · rw [h3] at h
              dsimp only at h
              injection h with h
              rw [← h]
              unfold State.pop
              dsimp only
              try rw [hf]
              have hpre : ∀ i, pre = .inst i → ∃ ins, st.insts[i]? = some ins ∧ ins.parent = f.parent ∧ ins.tmpl = f.tmpl := by
                intro i e
                rw [e] at h2
                obtain ⟨ins, a1, a2, y, a3⟩ := hi.entry _ _ _ h2
                exact ⟨ins, a1, a2, (pre_inj a3).1.symm⟩
              have hkill : kill st.insts f.current = st.insts := by rw [hcf]; rfl
              rw [hkill]
              exact (rest_update hi hf f.mangles pre st.insts (Keeps.refl _) (fun y hy => .inl hy) (fun _ _ _ => rfl) hpre).popped _
                (by intro i e; obtain ⟨ins, a1, a2, a3⟩ := hpre i e; exact ⟨ins, a1, a3, a2⟩)
            · rw [h5] at h
              dsimp only at h
              have hR2 := rest_update hi hf ms (.inst f.target) st.insts (Keeps.refl _)
                (fun y hy => by
                  rcases h3 y hy with a | ⟨a, b⟩
                  · exact .inl a
                  · exact .inr ⟨⟨m, a⟩, b⟩) (fun _ _ _ => rfl)
                (by intro i e; injection e with e; rw [← e]; exact ⟨_, htgt, rfl, rfl⟩)
              cases native with
              | true =>
                rw [if_pos rfl] at h
                injection h with h
                rw [← h]
                unfold State.pop
                dsimp only
                try rw [hf]
                refine (hR2.insts (keeps_finish _ _ _) ?_).popped _ ?_
                · intro g hg ht
                  exact modify_other _ (htne g hg hht ht) _
                · intro i e
                  injection e with e
                  rw [← e]
                  exact hfin _ (Keeps.refl _) _
              | false =>
                rw [if_neg (by decide)] at h
                injection h with h
                rw [← h]
                refine hR2.stays _ ?_ (disj_ms hi hf h3) ?_
                · refine ⟨⟨h2, ?_⟩, hfo.pre, ?_, fun e => (by cases e), fun e => absurd rfl e, .inr rfl,
                    fun _ => hfo.target hht, fun e => absurd e herr, fun e => absurd e herr⟩
                  · intro y hy
                    show putAll st.specs f.parent ms _ f.parent y = _
                    unfold putAll
                    rw [if_pos ⟨rfl, hy⟩]
                  · intro y hy
                    rcases h3 y hy with a | ⟨a, b⟩
                    · exact hfo.names y a
                    · exact ⟨m, a⟩
                · intro g hg _ ht
                  exact htne g hg hht ht
  | last sig dirty =>
    simp only [step] at h
    cases hf : st.frames with
    | nil => rw [hf] at h; cases h
    | cons f rest =>
      rw [hf] at h
      dsimp only at h
      have hfo := hi.frames f (by rw [hf]; exact List.mem_cons_self ..)
      by_cases hp : f.phase ≠ .solving
      · rw [if_pos hp] at h; cases h
      · rw [if_neg hp] at h
        have hp : f.phase = .solving := Decidable.not_not.mp hp
        have hht : HasTarget f := .inr hp
        obtain ⟨fin, htgt⟩ := hfo.target hht
        have htne := target_ne hi hf
        have hfin : ∀ (b : List Inst), Keeps st.insts b → ∀ sig, ∃ ins, (finish b f.target sig)[f.target]? = some ins ∧
            ins.tmpl = f.tmpl ∧ ins.parent = f.parent := by
          intro b hb sig
          obtain ⟨y, hy, a1, a2, a3⟩ := (hb.trans (keeps_finish b f.target sig)) _ _ htgt
          exact ⟨y, hy, a1, a2⟩
        by_cases hd : dirty = true
        · rw [if_pos hd] at h
          have hR := rest_update hi hf f.mangles f.current st.insts (Keeps.refl _) (fun y hy => .inl hy) (fun _ _ _ => rfl)
            (by
              intro i e
              rcases hfo.cur with c | c
              · rw [c] at e; cases e
              · rw [c] at e; injection e with e; rw [← e]; exact ⟨_, htgt, rfl, rfl⟩)
          rw [putAll_own hfo.owns.2] at hR
          injection h with h
          rw [← h]
          unfold State.pop
          dsimp only
          try rw [hf]
          refine (hR.insts (keeps_finish _ _ _) ?_).popped _ ?_
          · intro g hg ht
            exact modify_other _ (htne g hg hht ht) _
          · intro i e
            injection e with e
            rw [← e]
            exact hfin _ (Keeps.refl _) _
        · rw [if_neg hd] at h
          obtain ⟨x, hx⟩ := hfo.pre
          cases hm : mangleTypes sig with
          | error e => simp [publish, resetArgs, hm] at h
          | ok m =>
            rcases publish_spec (b := true) hfo.owns hx (.inr rfl) hfo.cur hm with ⟨h1, pre, h2, h3⟩ | ⟨ms, h1, h2, h3, h4, h5⟩
            · rw [h3] at h
              dsimp only at h
              injection h with h
              rw [← h]
              unfold State.pop
              dsimp only
              try rw [hf]
              have hpre : ∀ i, pre = .inst i → ∃ ins, st.insts[i]? = some ins ∧ ins.parent = f.parent ∧ ins.tmpl = f.tmpl := by
                intro i e
                rw [e] at h2
                obtain ⟨ins, a1, a2, y, a3⟩ := hi.entry _ _ _ h2
                exact ⟨ins, a1, a2, (pre_inj a3).1.symm⟩
              refine (rest_update hi hf f.mangles pre (kill st.insts f.current) (keeps_kill _ _) (fun y hy => .inl hy) ?_ hpre).popped _ ?_
              · intro g hg ht
                rcases hfo.cur with c | c
                · rw [c]; rfl
                · rw [c]; exact modify_other _ (htne g hg hht ht) _
              · intro i e
                obtain ⟨ins, a1, a2, a3⟩ := hpre i e
                obtain ⟨y, hy, b1, b2, b3⟩ := keeps_kill st.insts f.current i ins a1
                exact ⟨y, hy, by rw [b1, a3], by rw [b2, a2]⟩
            · rw [h5] at h
              dsimp only at h
              have hR2 := rest_update hi hf ms (.inst f.target) st.insts (Keeps.refl _)
                (fun y hy => by
                  rcases h3 y hy with a | ⟨a, b⟩
                  · exact .inl a
                  · exact .inr ⟨⟨m, a⟩, b⟩) (fun _ _ _ => rfl)
                (by intro i e; injection e with e; rw [← e]; exact ⟨_, htgt, rfl, rfl⟩)
              injection h with h
              rw [← h]
              unfold State.pop
              dsimp only
              try rw [hf]
              refine (hR2.insts (keeps_finish _ _ _) ?_).popped _ ?_
              · intro g hg ht
                exact modify_other _ (htne g hg hht ht) _
              · intro i e
                injection e with e
                rw [← e]
                exact hfin _ (Keeps.refl _) _

theorem exec_inv {st st' : State} (evs : List Ev) (hi : Inv st) (h : exec st evs = .ok st') : Inv st' := by
  induction evs generalizing st with
  | nil => simp only [exec] at h; injection h with h; rw [← h]; exact hi
  | cons e evs ih =>
    simp only [exec] at h
    cases hs : step st e with
    | error x => rw [hs] at h; cases h
    | ok st1 => rw [hs] at h; exact ih (step_inv hi hs) h

end Verif.SpecCache
