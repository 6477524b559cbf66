import Verif.SpecCacheEff
/-! # C96: the cache does not change what a call gets -/
namespace Verif.SpecCache
open Verif

def KeyOf (t : Tmpl) (l : List Slot) (k : Str) : Prop := ∃ m, mangleTypes l = .ok m ∧ k = t.pre ++ m

theorem same_sem {S : Solver} (hL : S.Laws) (t : Tmpl) {a b : List Slot} (h : norm a = norm b) :
    S.ok t a = S.ok t b ∧ S.fin t a = S.fin t b := by
  have h1 : ∀ l, S.ok t l = S.ok t (norm l) ∧ S.fin t l = S.fin t (norm l) := by
    intro l
    unfold norm
    split
    · exact hL.blank t
    · exact ⟨rfl, rfl⟩
  rw [(h1 a).1, (h1 a).2, (h1 b).1, (h1 b).2, h]
  exact ⟨rfl, rfl⟩

theorem key_sem {S : Solver} (hL : S.Laws) {t u : Tmpl} {a b : List Slot} {k : Str} (ha : OkSlots a) (hb : OkSlots b)
    (h1 : KeyOf t a k) (h2 : KeyOf u b k) : t = u ∧ S.ok t a = S.ok t b ∧ S.fin t a = S.fin t b := by
  obtain ⟨m, e1, e2⟩ := h1
  obtain ⟨n, e3, e4⟩ := h2
  obtain ⟨h3, h4⟩ := key_injective ha hb e1 e3 (by rw [← e2, e4])
  exact ⟨h3, same_sem hL t h4⟩

theorem key_of (t : Tmpl) {l : List Slot} (h : OkSlots l) : KeyOf t l (t.pre ++ joinC (l.map text)) :=
  ⟨_, mangleTypes_eq l h, rfl⟩

/-- specializing for the types `l` is specializing for what the instance was made from -/
def Fits (S : Solver) (t : Tmpl) (made l : List Slot) : Prop := S.ok t l = true ∧ S.fin t l = S.fin t made

structure FrameSem (S : Solver) (f : Frame) : Prop where
  call : OkSlots f.call
  made : f.phase ≠ .entered → OkSlots f.made
  names : f.phase ≠ .entered → ∀ m ∈ f.mangles, ∀ l, OkSlots l → KeyOf f.tmpl l m → S.ok f.tmpl f.made = true → Fits S f.tmpl f.made l
  ok : HasTarget f → S.ok f.tmpl f.made = true
  plain : f.phase ≠ .entered → f.lit = false → f.made = f.call

structure Sem (S : Solver) (st : State) : Prop where
  ent : ∀ p k i, st.specs p k = some (.inst i) → ∃ ins, st.insts[i]? = some ins ∧
    ∀ l, OkSlots l → KeyOf ins.tmpl l k → Fits S ins.tmpl ins.made l
  frames : ∀ f ∈ st.frames, FrameSem S f
  log : ∀ d ∈ st.log, d.lit = false → ∀ i, d.result = .inst i → ∃ ins, st.insts[i]? = some ins ∧ ins.tmpl = d.tmpl ∧
    Fits S d.tmpl ins.made d.call

theorem Sem.init (S : Solver) : Sem S State.init where
  ent := by intro p k i h; cases h
  frames := by intro f hf; cases hf
  log := by intro d hd; cases hd

/-- the entries after the top frame's names were bound to an instance -/
theorem ent_put {S : Solver} {st : State} (hs : Sem S st) (p : Int) (ms : List Str) (e : Entry) (insts : List Inst)
    (hk : Keeps st.insts insts)
    (he : ∀ i, e = .inst i → ∃ ins, st.insts[i]? = some ins ∧
      ∀ k ∈ ms, ∀ l, OkSlots l → KeyOf ins.tmpl l k → Fits S ins.tmpl ins.made l) :
    ∀ p' k i, putAll st.specs p ms e p' k = some (.inst i) → ∃ ins, insts[i]? = some ins ∧
      ∀ l, OkSlots l → KeyOf ins.tmpl l k → Fits S ins.tmpl ins.made l := by
  intro p' k i h
  unfold putAll at h
  split at h
  · rename_i hc
    injection h with h
    obtain ⟨ins, h1, h2⟩ := he i h
    obtain ⟨y, hy, a1, a2, a3⟩ := hk i ins h1
    refine ⟨y, hy, ?_⟩
    rw [a1, a3]
    exact h2 k hc.2
  · obtain ⟨ins, h1, h2⟩ := hs.ent p' k i h
    obtain ⟨y, hy, a1, a2, a3⟩ := hk i ins h1
    refine ⟨y, hy, ?_⟩
    rw [a1, a3]
    exact h2

theorem log_keep {S : Solver} {st : State} (hs : Sem S st) {insts : List Inst} (hk : Keeps st.insts insts) (d0 : Done)
    (h0 : d0.lit = false → ∀ i, d0.result = .inst i → ∃ ins, st.insts[i]? = some ins ∧ ins.tmpl = d0.tmpl ∧
      Fits S d0.tmpl ins.made d0.call) :
    ∀ d ∈ st.log ++ [d0], d.lit = false → ∀ i, d.result = .inst i → ∃ ins, insts[i]? = some ins ∧ ins.tmpl = d.tmpl ∧
      Fits S d.tmpl ins.made d.call := by
  intro d hd hl i hr
  have : ∃ ins, st.insts[i]? = some ins ∧ ins.tmpl = d.tmpl ∧ Fits S d.tmpl ins.made d.call := by
    rcases List.mem_append.mp hd with h1 | h1
    · exact hs.log d h1 hl i hr
    · rw [List.mem_singleton] at h1
      rw [h1] at hl hr ⊢
      exact h0 hl i hr
  obtain ⟨ins, h1, h2, h3⟩ := this
  obtain ⟨y, hy, a1, a2, a3⟩ := hk i ins h1
  exact ⟨y, hy, by rw [a1, h2], by rw [a3]; exact h3⟩

theorem log_keep' {S : Solver} {st : State} (hs : Sem S st) {insts : List Inst} (hk : Keeps st.insts insts) :
    ∀ d ∈ st.log, d.lit = false → ∀ i, d.result = .inst i → ∃ ins, insts[i]? = some ins ∧ ins.tmpl = d.tmpl ∧
      Fits S d.tmpl ins.made d.call := by
  intro d hd
  exact log_keep hs hk d (hs.log d hd) d (List.mem_append.mpr (.inr (List.mem_singleton.mpr rfl)))

theorem tail_frames {S : Solver} {st : State} (hs : Sem S st) {f : Frame} {rest : List Frame} (hf : st.frames = f :: rest) :
    ∀ g ∈ rest, FrameSem S g := fun g hg => hs.frames g (by rw [hf]; exact List.mem_cons_of_mem _ hg)

/-- the instance found under the name of types equivalent to what the frame is making -/
theorem found_fits {S : Solver} {st : State} (hi : Inv st) (hs : Sem S st) {f : Frame} {args : List Slot}
    (hok : OkSlots args) {pre : Entry} (h : Taken st f args pre) {i : Nat} (he : pre = .inst i) :
    ∃ ins, st.insts[i]? = some ins ∧ ins.tmpl = f.tmpl ∧ Fits S f.tmpl ins.made args := by
  obtain ⟨m, hm, _, hsp⟩ := h
  rw [he] at hsp
  obtain ⟨ins, h1, h2⟩ := hs.ent _ _ _ hsp
  obtain ⟨ins', h1', _, x, h3⟩ := hi.entry _ _ _ hsp
  rw [h1] at h1'
  injection h1' with h1'
  rw [← h1'] at h3
  have ht := (pre_inj h3).1
  refine ⟨ins, h1, ht.symm, ?_⟩
  have := h2 args hok ⟨m, hm, by rw [← ht]⟩
  rw [← ht] at this
  exact this

theorem eff_sem {S : Solver} (hL : S.Laws) {st st' : State} {ev : Ev} (hi : Inv st) (hs : Sem S st) (ha : Agrees S st ev)
    (h : Eff st ev st') : Sem S st' := by
  have hpop : ∀ {f : Frame} {rest : List Frame}, st.frames = f :: rest → ∀ (specs : Specs) (insts : List Inst) (e : Entry),
      Keeps st.insts insts →
      (∀ p' k i, specs p' k = some (.inst i) → ∃ ins, insts[i]? = some ins ∧
        ∀ l, OkSlots l → KeyOf ins.tmpl l k → Fits S ins.tmpl ins.made l) →
      (f.lit = false → ∀ i, e = .inst i → ∃ ins, st.insts[i]? = some ins ∧ ins.tmpl = f.tmpl ∧ Fits S f.tmpl ins.made f.call) →
      Sem S ⟨specs, insts, rest, st.log ++ [doneBy f e]⟩ := by
    intro f rest hf specs insts e hk he hl
    exact ⟨he, tail_frames hs hf, log_keep hs hk _ hl⟩
  -- what the frame's own instance is
  have htgt : ∀ {f : Frame} {rest : List Frame}, st.frames = f :: rest → HasTarget f → ∀ {ms : List Str} {sig : List Slot},
      OkSlots sig → S.ok f.tmpl sig = true → S.fin f.tmpl sig = S.fin f.tmpl f.made → Takes st f sig ms →
      ∀ i, Entry.inst f.target = .inst i → ∃ ins, st.insts[i]? = some ins ∧
        ∀ k ∈ ms, ∀ l, OkSlots l → KeyOf ins.tmpl l k → Fits S ins.tmpl ins.made l := by
    intro f rest hf ht ms sig hsig h1 h2 htk i e
    injection e with e
    have hfo := hi.frames f (by rw [hf]; exact List.mem_cons_self ..)
    have hfs := hs.frames f (by rw [hf]; exact List.mem_cons_self ..)
    obtain ⟨fin, e1⟩ := hfo.target ht
    refine ⟨_, by rw [← e]; exact e1, ?_⟩
    intro k hk l hl hkey
    dsimp only at hkey ⊢
    obtain ⟨m, hm, _, hy⟩ := htk.name
    rcases hy k hk with h3 | ⟨h3, _⟩
    · exact hfs.names (by rcases ht with h | h <;> rw [h] <;> decide) k h3 l hl hkey (hfs.ok ht)
    · obtain ⟨_, e2, e3⟩ := key_sem hL hl hsig hkey ⟨m, hm, h3⟩
      exact ⟨by rw [e2, h1], by rw [e3, h2]⟩
  have hmine : ∀ {f : Frame} {rest : List Frame}, st.frames = f :: rest → HasTarget f → f.lit = false →
      ∀ i, Entry.inst f.target = .inst i → ∃ ins, st.insts[i]? = some ins ∧ ins.tmpl = f.tmpl ∧ Fits S f.tmpl ins.made f.call := by
    intro f rest hf ht hl i e
    injection e with e
    have hfo := hi.frames f (by rw [hf]; exact List.mem_cons_self ..)
    have hfs := hs.frames f (by rw [hf]; exact List.mem_cons_self ..)
    obtain ⟨fin, e1⟩ := hfo.target ht
    refine ⟨_, by rw [← e]; exact e1, rfl, ?_⟩
    have hpl := hfs.plain (by rcases ht with h | h <;> rw [h] <;> decide) hl
    rw [← hpl]
    exact ⟨hfs.ok ht, rfl⟩
  -- the frame's names now lead to another instance
  have hrep : ∀ {f : Frame} {rest : List Frame}, st.frames = f :: rest → HasTarget f → ∀ {sig : List Slot} {pre : Entry},
      OkSlots sig → S.fin f.tmpl sig = S.fin f.tmpl f.made → Taken st f sig pre → ∀ i, pre = .inst i →
      ∃ ins, st.insts[i]? = some ins ∧ ins.tmpl = f.tmpl ∧ S.fin f.tmpl f.made = S.fin f.tmpl ins.made ∧
        ∀ k ∈ f.mangles, ∀ l, OkSlots l → KeyOf ins.tmpl l k → Fits S ins.tmpl ins.made l := by
    intro f rest hf ht sig pre hsig h2 htk i e
    have hfs := hs.frames f (by rw [hf]; exact List.mem_cons_self ..)
    obtain ⟨ins, a1, a2, a3⟩ := found_fits hi hs hsig htk e
    refine ⟨ins, a1, a2, by rw [← h2, a3.2], ?_⟩
    intro k hk l hl hkey
    rw [a2] at hkey ⊢
    have := hfs.names (by rcases ht with h | h <;> rw [h] <;> decide) k hk l hl hkey (hfs.ok ht)
    exact ⟨this.1, by rw [this.2, ← h2, a3.2]⟩
  cases h with
  | hit h =>
    rename_i t p slots lit error mangle pre
    refine ⟨hs.ent, hs.frames, log_keep hs (Keeps.refl _) _ ?_⟩
    intro _ i e
    dsimp only at e ⊢
    rw [e] at h
    obtain ⟨ins, h1, h2⟩ := hs.ent _ _ _ h
    obtain ⟨ins', h1', _, x, h3⟩ := hi.entry _ _ _ h
    rw [h1] at h1'
    injection h1' with h1'
    rw [← h1'] at h3
    have ht := (pre_inj h3).1
    refine ⟨ins, h1, ht.symm, ?_⟩
    have := h2 slots ha.1 ⟨mangle, ha.2, by rw [← ht]⟩
    rw [← ht] at this
    exact this
  | enter =>
    refine ⟨hs.ent, ?_, hs.log⟩
    intro g hg
    rcases List.mem_cons.mp hg with e | e
    · rw [e]
      exact ⟨ha.1, fun c => absurd rfl c, fun c => absurd rfl c, (by rintro (c | c) <;> cases c), fun c => absurd rfl c⟩
    · exact hs.frames g e
  | errMatched hf hp he =>
    rename_i f rest fixed
    have hfs := hs.frames f (by rw [hf]; exact List.mem_cons_self ..)
    have hfo := hi.frames f (by rw [hf]; exact List.mem_cons_self ..)
    refine ⟨hs.ent, ?_, hs.log⟩
    intro g hg
    rcases List.mem_cons.mp hg with e | e
    · rw [e]
      refine ⟨hfs.call, fun _ => ha.1, ?_, (by rintro (c | c) <;> cases c), fun _ hl => (ha.2 f rest hf).1 hl⟩
      intro _ m hm
      have : f.mangles = [] := hfo.quiet he
      simp [this] at hm
    · exact tail_frames hs hf g e
  | errFailed hf hp he =>
    exact hpop hf _ _ _ (Keeps.refl _) hs.ent (by intro _ i e; cases e)
  | found hf hp he htk =>
    rename_i f rest fixed ok pre
    refine hpop hf _ _ _ (Keeps.refl _) hs.ent ?_
    intro hl i e
    obtain ⟨ins, a1, a2, a3⟩ := found_fits hi hs ha.1 htk e
    refine ⟨ins, a1, a2, ?_⟩
    rw [← (ha.2 f rest hf).1 hl]
    exact a3
  | matched hf hp he htk =>
    rename_i f rest fixed ms
    have hfs := hs.frames f (by rw [hf]; exact List.mem_cons_self ..)
    have hfo := hi.frames f (by rw [hf]; exact List.mem_cons_self ..)
    refine ⟨ent_put hs _ _ _ _ (Keeps.refl _) (by intro i e; cases e), ?_, hs.log⟩
    intro g hg
    rcases List.mem_cons.mp hg with e | e
    · rw [e]
      refine ⟨hfs.call, fun _ => ha.1, ?_, (by rintro (c | c) <;> cases c), fun _ hl => (ha.2 f rest hf).1 hl⟩
      intro _ k hk l hl hkey hok
      dsimp only at hk hkey hok ⊢
      obtain ⟨m, hm, _, hy⟩ := htk.name
      rcases hy k hk with h3 | ⟨h3, _⟩
      · rw [hfo.entered hp] at h3; cases h3
      · obtain ⟨_, e2, e3⟩ := key_sem hL hl ha.1 hkey ⟨m, hm, h3⟩
        exact ⟨by rw [e2, hok], e3⟩
    · exact tail_frames hs hf g e
  | failed hf hp he htk =>
    exact hpop hf _ _ _ (Keeps.refl _) (ent_put hs _ _ _ _ (Keeps.refl _) (by intro i e; cases e)) (by intro _ i e; cases e)
  | rejected hf hp =>
    exact hpop hf _ _ _ (Keeps.refl _) hs.ent (by intro _ i e; cases e)
  | created hf hp he =>
    rename_i f rest
    have hfs := hs.frames f (by rw [hf]; exact List.mem_cons_self ..)
    refine ⟨?_, ?_, log_keep' hs (keeps_append _ _)⟩
    · intro p k i h
      obtain ⟨ins, h1, h2⟩ := hs.ent p k i h
      obtain ⟨hl, _⟩ := List.getElem?_eq_some_iff.mp h1
      exact ⟨ins, by rw [List.getElem?_append_left hl]; exact h1, h2⟩
    · intro g hg
      rcases List.mem_cons.mp hg with e | e
      · rw [e]
        have hne : f.phase ≠ .entered := by rw [hp]; decide
        exact ⟨hfs.call, fun _ => hfs.made hne, fun _ => hfs.names hne, fun _ => ha f rest hf, fun _ => hfs.plain hne⟩
      · exact tail_frames hs hf g e
  | replaced1 hf hp htk =>
    rename_i f rest sig native pre
    have hfs := hs.frames f (by rw [hf]; exact List.mem_cons_self ..)
    have hT : HasTarget f := .inl hp
    have hsig := (ha.2 f rest hf).1
    have hlaw := hL.first_ok f.tmpl f.made (hfs.ok hT)
    rw [← hsig] at hlaw
    refine hpop hf _ _ _ (Keeps.refl _) (ent_put hs _ _ _ _ (Keeps.refl _) ?_) ?_
    · intro i e
      obtain ⟨ins, a1, _, _, a4⟩ := hrep hf hT ha.1 hlaw.2 htk i e
      exact ⟨ins, a1, a4⟩
    · intro hl i e
      obtain ⟨ins, a1, a2, a3, _⟩ := hrep hf hT ha.1 hlaw.2 htk i e
      refine ⟨ins, a1, a2, ?_⟩
      rw [← hfs.plain (by rw [hp]; decide) hl]
      exact ⟨hfs.ok hT, a3⟩
  | published hf hp htk =>
    rename_i f rest sig ms
    have hfs := hs.frames f (by rw [hf]; exact List.mem_cons_self ..)
    have hT : HasTarget f := .inl hp
    have hsig := (ha.2 f rest hf).1
    have hlaw := hL.first_ok f.tmpl f.made (hfs.ok hT)
    rw [← hsig] at hlaw
    have htg := htgt hf hT ha.1 hlaw.1 hlaw.2 htk
    refine ⟨ent_put hs _ _ _ _ (Keeps.refl _) htg, ?_, hs.log⟩
    intro g hg
    rcases List.mem_cons.mp hg with e | e
    · rw [e]
      have hne : f.phase ≠ .entered := by rw [hp]; decide
      refine ⟨hfs.call, fun _ => hfs.made hne, ?_, fun _ => hfs.ok hT, fun _ => hfs.plain hne⟩
      intro _ k hk l hl hkey hok
      dsimp only at hk hkey hok ⊢
      obtain ⟨m, hm, _, hy⟩ := htk.name
      rcases hy k hk with h3 | ⟨h3, _⟩
      · exact hfs.names hne k h3 l hl hkey hok
      · obtain ⟨_, e2, e3⟩ := key_sem hL hl ha.1 hkey ⟨m, hm, h3⟩
        exact ⟨by rw [e2, hlaw.1], by rw [e3, hlaw.2]⟩
    · exact tail_frames hs hf g e
  | native hf hp htk =>
    rename_i f rest sig ms
    have hfs := hs.frames f (by rw [hf]; exact List.mem_cons_self ..)
    have hT : HasTarget f := .inl hp
    have hsig := (ha.2 f rest hf).1
    have hlaw := hL.first_ok f.tmpl f.made (hfs.ok hT)
    rw [← hsig] at hlaw
    exact hpop hf _ _ _ (keeps_finish _ _ _) (ent_put hs _ _ _ _ (keeps_finish _ _ _) (htgt hf hT ha.1 hlaw.1 hlaw.2 htk))
      (hmine hf hT)
  | dirty1 hf hp =>
    rename_i f rest sig
    have hfs := hs.frames f (by rw [hf]; exact List.mem_cons_self ..)
    refine ⟨hs.ent, ?_, hs.log⟩
    intro g hg
    rcases List.mem_cons.mp hg with e | e
    · rw [e]
      have hne : f.phase ≠ .entered := by rw [hp]; decide
      exact ⟨hfs.call, fun _ => hfs.made hne, fun _ => hfs.names hne, fun _ => hfs.ok (.inl hp), fun _ => hfs.plain hne⟩
    · exact tail_frames hs hf g e
  | dirtyNative hf hp =>
    rename_i f rest sig
    have e : ∀ p' k i, st.specs p' k = some (.inst i) → ∃ ins, (finish st.insts f.target sig)[i]? = some ins ∧
        ∀ l, OkSlots l → KeyOf ins.tmpl l k → Fits S ins.tmpl ins.made l := by
      have := ent_put hs 0 [] .fail _ (keeps_finish st.insts f.target sig) (by intro i e; cases e)
      intro p' k i hh
      exact this p' k i (by simpa [putAll] using hh)
    exact hpop hf _ _ _ (keeps_finish _ _ _) e (hmine hf (.inl hp))
  | replaced2 hf hp htk =>
    rename_i f rest sig pre
    have hfs := hs.frames f (by rw [hf]; exact List.mem_cons_self ..)
    have hT : HasTarget f := .inr hp
    have hsig := (ha.2 f rest hf).1
    have hlaw := hL.fin_ok f.tmpl f.made (hfs.ok hT)
    rw [← hsig] at hlaw
    refine hpop hf _ _ _ (keeps_kill _ _) (ent_put hs _ _ _ _ (keeps_kill _ _) ?_) ?_
    · intro i e
      obtain ⟨ins, a1, _, _, a4⟩ := hrep hf hT ha.1 (by rw [hlaw.2, hsig]) htk i e
      exact ⟨ins, a1, a4⟩
    · intro hl i e
      obtain ⟨ins, a1, a2, a3, _⟩ := hrep hf hT ha.1 (by rw [hlaw.2, hsig]) htk i e
      refine ⟨ins, a1, a2, ?_⟩
      rw [← hfs.plain (by rw [hp]; decide) hl]
      exact ⟨hfs.ok hT, a3⟩
  | solved hf hp htk =>
    rename_i f rest sig ms
    have hfs := hs.frames f (by rw [hf]; exact List.mem_cons_self ..)
    have hT : HasTarget f := .inr hp
    have hsig := (ha.2 f rest hf).1
    have hlaw := hL.fin_ok f.tmpl f.made (hfs.ok hT)
    rw [← hsig] at hlaw
    exact hpop hf _ _ _ (keeps_finish _ _ _)
      (ent_put hs _ _ _ _ (keeps_finish _ _ _) (htgt hf hT ha.1 hlaw.1 (by rw [hlaw.2, hsig]) htk)) (hmine hf hT)
  | dirty2 hf hp =>
    rename_i f rest sig
    have e : ∀ p' k i, st.specs p' k = some (.inst i) → ∃ ins, (finish st.insts f.target sig)[i]? = some ins ∧
        ∀ l, OkSlots l → KeyOf ins.tmpl l k → Fits S ins.tmpl ins.made l := by
      have := ent_put hs 0 [] .fail _ (keeps_finish st.insts f.target sig) (by intro i e; cases e)
      intro p' k i hh
      exact this p' k i (by simpa [putAll] using hh)
    exact hpop hf _ _ _ (keeps_finish _ _ _) e (hmine hf (.inr hp))

theorem reach_sem {S : Solver} (hL : S.Laws) {P : State → Ev → Prop} {st : State} (h : Reach S P st) : Inv st ∧ Sem S st := by
  induction h with
  | init => exact ⟨Inv.init, Sem.init S⟩
  | step _ ha _ he ih => exact ⟨step_inv ih.1 he, eff_sem hL ih.1 ih.2 ha (step_eff ih.1 he)⟩

/-- **A cached instance is the right one.** In every history, nested calls included: a call without literals that is given an
instance has types the template accepts, and the instance is one the template makes for those types: made from types that
specialize to the same signature. -/
theorem right_instance_partial {S : Solver} (hL : S.Laws) {st : State} (h : Reach S Anywhere st) {d : Done} (hd : d ∈ st.log)
    (hl : d.lit = false) {i : Nat} (hr : d.result = .inst i) :
    S.ok d.tmpl d.call = true ∧
    ∃ ins, st.insts[i]? = some ins ∧ ins.tmpl = d.tmpl ∧ S.fin d.tmpl d.call = S.fin d.tmpl ins.made := by
  obtain ⟨ins, h1, h2, h3⟩ := (reach_sem hL h).2.log d hd hl i hr
  exact ⟨h3.1, ins, h1, h2, h3.2⟩

end Verif.SpecCache
