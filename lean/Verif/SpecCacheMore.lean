import Verif.SpecCacheProps
/-! # C96: refusals, lifetimes and duplicates -/
namespace Verif.SpecCache
open Verif

/-! ### a cached refusal is a refusal -/

structure Ref (S : Solver) (st : State) : Prop where
  ent : ∀ p k, st.specs p k = some .fail → (∃ f ∈ st.frames, f.parent = p ∧ k ∈ f.mangles) ∨
    ∀ t l, OkSlots l → KeyOf t l k → S.ok t l = false
  below : ∀ g ∈ st.frames.tail, g.phase = .solving
  solving : ∀ f ∈ st.frames, f.phase = .solving → f.current = .inst f.target
  matched : ∀ f ∈ st.frames, f.phase = .matched ∨ f.phase = .created → ∀ k ∈ f.mangles, KeyOf f.tmpl f.made k
  log : ∀ d ∈ st.log, d.lit = false → d.result = .fail → S.ok d.tmpl d.call = false

theorem Ref.init (S : Solver) : Ref S State.init where
  ent := by intro p k h; cases h
  below := by intro f hf; cases hf
  solving := by intro f hf; cases hf
  matched := by intro f hf; cases hf
  log := by intro d hd; cases hd

theorem eff_ref {S : Solver} (hL : S.Laws) {st st' : State} {ev : Ev} (hi : Inv st) (hs : Sem S st) (hr : Ref S st)
    (ha : Agrees S st ev) (hp : FromBodies st ev) (h : Eff st ev st') : Ref S st' := by
  -- a refusal under a name no frame of interest has
  have hno : ∀ {p k}, st.specs p k = some .fail → (∀ f ∈ st.frames, f.parent = p → k ∈ f.mangles → f.phase = .solving) →
      ∀ t l, OkSlots l → KeyOf t l k → S.ok t l = false := by
    intro p k hsp hfr
    rcases hr.ent p k hsp with ⟨f, hf, hfp, hk⟩ | h
    · have h1 := (hi.frames f hf).owns.2 k hk
      rw [hfp, hsp, hr.solving f hf (hfr f hf hfp hk)] at h1
      cases h1
    · exact h
  have htaken : ∀ {f rest args}, st.frames = f :: rest → OkSlots args → Taken st f args .fail → S.ok f.tmpl args = false := by
    intro f rest args hf hok ⟨m, hm, hn, hsp⟩
    refine hno hsp ?_ f.tmpl args hok ⟨m, hm, rfl⟩
    intro g hg _ hk
    rw [hf] at hg
    rcases List.mem_cons.mp hg with e | e
    · rw [e] at hk; exact absurd hk hn
    · exact hr.below g (by rw [hf]; exact e)
  have hbelow : ∀ {f rest}, st.frames = f :: rest → ∀ g ∈ rest, g.phase = .solving := by
    intro f rest hf g hg
    exact hr.below g (by rw [hf]; exact hg)
  have hlog : ∀ d0 : Done, (d0.lit = false → d0.result = .fail → S.ok d0.tmpl d0.call = false) →
      ∀ d ∈ st.log ++ [d0], d.lit = false → d.result = .fail → S.ok d.tmpl d.call = false := by
    intro d0 h0 d hd
    rcases List.mem_append.mp hd with h1 | h1
    · exact hr.log d h1
    · rw [List.mem_singleton] at h1; rw [h1]; exact h0
  -- a frame leaves, its names bound to something else or refused for good
  have hpop : ∀ {f rest}, st.frames = f :: rest → ∀ (ms : List Str) (e : Entry) (insts : List Inst) (r : Entry),
      (∀ y ∈ f.mangles, y ∈ ms) →
      (e = .fail → ∀ k ∈ ms, ∀ t l, OkSlots l → KeyOf t l k → S.ok t l = false) →
      (f.lit = false → r = .fail → S.ok f.tmpl f.call = false) →
      Ref S ⟨putAll st.specs f.parent ms e, insts, rest, st.log ++ [doneBy f r]⟩ := by
    intro f rest hf ms e insts r hms he hl
    refine ⟨?_, ?_, ?_, ?_, hlog _ hl⟩
    · intro p k h
      dsimp only at h ⊢
      unfold putAll at h
      split at h
      · rename_i hc
        injection h with h
        exact .inr (he h k hc.2)
      · rename_i hc
        rcases hr.ent p k h with ⟨g, hg, hgp, hk⟩ | h
        · rw [hf] at hg
          rcases List.mem_cons.mp hg with e1 | e1
          · rw [e1] at hk hgp
            exact absurd ⟨hgp.symm, hms k hk⟩ hc
          · exact .inl ⟨g, e1, hgp, hk⟩
        · exact .inr h
    · intro g hg; exact hbelow hf g (List.mem_of_mem_tail hg)
    · intro g hg; exact hr.solving g (by rw [hf]; exact List.mem_cons_of_mem _ hg)
    · intro g hg; exact hr.matched g (by rw [hf]; exact List.mem_cons_of_mem _ hg)
  -- a frame stays
  have hstay : ∀ {f rest}, st.frames = f :: rest → ∀ (f' : Frame) (ms : List Str) (e : Entry) (insts : List Inst),
      f'.parent = f.parent → f'.mangles = ms → (∀ y ∈ f.mangles, y ∈ ms) →
      (f'.phase = .solving → f'.current = .inst f'.target) →
      (f'.phase = .matched ∨ f'.phase = .created → ∀ k ∈ ms, KeyOf f'.tmpl f'.made k) →
      Ref S ⟨putAll st.specs f.parent ms e, insts, f' :: rest, st.log⟩ := by
    intro f rest hf f' ms e insts hfp hfm hms hso hma
    refine ⟨?_, ?_, ?_, ?_, hr.log⟩
    · intro p k h
      dsimp only at h ⊢
      unfold putAll at h
      split at h
      · rename_i hc
        exact .inl ⟨f', List.mem_cons_self .., by rw [hfp, hc.1], by rw [hfm]; exact hc.2⟩
      · rename_i hc
        rcases hr.ent p k h with ⟨g, hg, hgp, hk⟩ | h
        · rw [hf] at hg
          rcases List.mem_cons.mp hg with e1 | e1
          · rw [e1] at hk hgp
            exact absurd ⟨hgp.symm, hms k hk⟩ hc
          · exact .inl ⟨g, List.mem_cons_of_mem _ e1, hgp, hk⟩
        · exact .inr h
    · intro g hg; exact hbelow hf g hg
    · intro g hg
      rcases List.mem_cons.mp hg with e1 | e1
      · rw [e1]; exact hso
      · exact hr.solving g (by rw [hf]; exact List.mem_cons_of_mem _ e1)
    · intro g hg
      rcases List.mem_cons.mp hg with e1 | e1
      · rw [e1, hfm]; exact hma
      · exact hr.matched g (by rw [hf]; exact List.mem_cons_of_mem _ e1)
  cases h with
  | hit h =>
    rename_i t p slots lit error mangle pre
    refine ⟨hr.ent, hr.below, hr.solving, hr.matched, hlog _ ?_⟩
    intro _ e
    dsimp only at e ⊢
    rw [e] at h
    exact hno h (fun f hf _ _ => hp f hf) t slots ha.1 ⟨mangle, ha.2, rfl⟩
  | enter =>
    rename_i t p slots lit error mangle
    refine ⟨?_, ?_, ?_, ?_, hr.log⟩
    · intro p k h
      rcases hr.ent p k h with ⟨g, hg, hgp, hk⟩ | h
      · exact .inl ⟨g, List.mem_cons_of_mem _ hg, hgp, hk⟩
      · exact .inr h
    · intro g hg; exact hp g hg
    · intro g hg
      rcases List.mem_cons.mp hg with e1 | e1
      · rw [e1]; intro c; cases c
      · exact hr.solving g e1
    · intro g hg
      rcases List.mem_cons.mp hg with e1 | e1
      · rw [e1]; rintro (c | c) <;> cases c
      · exact hr.matched g e1
  | errMatched hf hph he =>
    rename_i f rest fixed
    have hfo := hi.frames f (by rw [hf]; exact List.mem_cons_self ..)
    have hm0 := hfo.quiet he
    have := hstay hf { f with phase := .matched, made := fixed } f.mangles f.current st.insts rfl rfl (fun _ h => h)
      (by intro c; cases c) (by intro _ k hk; rw [hm0] at hk; cases hk)
    rw [putAll_own hfo.owns.2] at this
    exact this
  | errFailed hf hph he =>
    rename_i f rest fixed
    have hfo := hi.frames f (by rw [hf]; exact List.mem_cons_self ..)
    have hm0 := hfo.quiet he
    have := hpop hf f.mangles f.current st.insts .fail (fun _ h => h) (by intro _ k hk; rw [hm0] at hk; cases hk)
      (by
        intro hl _
        have h1 := ha.2 f rest hf
        rw [← h1.1 hl]
        exact h1.2 rfl)
    rw [putAll_own hfo.owns.2] at this
    exact this
  | found hf hph he htk =>
    rename_i f rest fixed ok pre
    have hfo := hi.frames f (by rw [hf]; exact List.mem_cons_self ..)
    have hm0 := hfo.entered hph
    have := hpop hf f.mangles f.current st.insts pre (fun _ h => h) (by intro _ k hk; rw [hm0] at hk; cases hk)
      (by
        intro hl e
        rw [e] at htk
        rw [← (ha.2 f rest hf).1 hl]
        exact htaken hf ha.1 htk)
    rw [putAll_own hfo.owns.2] at this
    exact this
  | matched hf hph he htk =>
    rename_i f rest fixed ms
    have hfo := hi.frames f (by rw [hf]; exact List.mem_cons_self ..)
    have hm0 := hfo.entered hph
    refine hstay hf _ ms .fail st.insts rfl rfl htk.more (by intro c; cases c) ?_
    intro _ k hk
    obtain ⟨m, hm, _, hy⟩ := htk.name
    rcases hy k hk with h3 | ⟨h3, _⟩
    · rw [hm0] at h3; cases h3
    · exact ⟨m, hm, h3⟩
  | failed hf hph he htk =>
    rename_i f rest fixed ms
    have hfo := hi.frames f (by rw [hf]; exact List.mem_cons_self ..)
    have hm0 := hfo.entered hph
    have hno := (ha.2 f rest hf).2 rfl
    refine hpop hf ms .fail st.insts .fail htk.more ?_ ?_
    · intro _ k hk t l hl hkey
      obtain ⟨m, hm, _, hy⟩ := htk.name
      rcases hy k hk with h3 | ⟨h3, _⟩
      · rw [hm0] at h3; cases h3
      · obtain ⟨e1, e2, _⟩ := key_sem hL hl ha.1 hkey (⟨m, hm, h3⟩ : KeyOf f.tmpl fixed k)
        rw [e2, e1]; exact hno
    · intro hl _
      rw [← (ha.2 f rest hf).1 hl]; exact hno
  | rejected hf hph =>
    rename_i f rest
    have hfo := hi.frames f (by rw [hf]; exact List.mem_cons_self ..)
    have hfs := hs.frames f (by rw [hf]; exact List.mem_cons_self ..)
    have hne : f.phase ≠ .entered := by rw [hph]; decide
    have hno := ha f rest hf
    have := hpop hf f.mangles f.current st.insts .fail (fun _ h => h)
      (by
        intro _ k hk t l hl hkey
        have hk2 := hr.matched f (by rw [hf]; exact List.mem_cons_self ..) (.inl hph) k hk
        obtain ⟨e1, e2, _⟩ := key_sem hL hl (hfs.made hne) hkey hk2
        rw [e2, e1]; exact hno)
      (by intro hl _; rw [← hfs.plain hne hl]; exact hno)
    rw [putAll_own hfo.owns.2] at this
    exact this
  | created hf hph he =>
    rename_i f rest
    have hfo := hi.frames f (by rw [hf]; exact List.mem_cons_self ..)
    have := hstay hf { f with phase := .created, target := st.insts.length } f.mangles f.current
      (st.insts ++ [⟨f.tmpl, f.parent, f.made, false, none⟩]) rfl rfl (fun _ h => h) (by intro c; cases c)
      (fun _ => hr.matched f (by rw [hf]; exact List.mem_cons_self ..) (.inl hph))
    rw [putAll_own hfo.owns.2] at this
    exact this
  | replaced1 hf hph htk =>
    rename_i f rest sig native pre
    have hfs := hs.frames f (by rw [hf]; exact List.mem_cons_self ..)
    have hT : HasTarget f := .inl hph
    have hlaw := hL.first_ok f.tmpl f.made (hfs.ok hT)
    rw [← (ha.2 f rest hf).1] at hlaw
    have hne : pre ≠ .fail := by
      intro e
      rw [e] at htk
      rw [htaken hf ha.1 htk] at hlaw
      cases hlaw.1
    exact hpop hf f.mangles pre st.insts pre (fun _ h => h) (fun e => absurd e hne) (fun _ e => absurd e hne)
  | published hf hph htk =>
    rename_i f rest sig ms
    refine hstay hf _ ms (.inst f.target) st.insts rfl rfl htk.more (fun _ => rfl) ?_
    rintro (c | c) <;> cases c
  | native hf hph htk =>
    rename_i f rest sig ms
    exact hpop hf ms (.inst f.target) _ (.inst f.target) htk.more (by intro e; cases e) (by intro _ e; cases e)
  | dirty1 hf hph => cases hp
  | dirtyNative hf hph => cases hp
  | replaced2 hf hph htk =>
    rename_i f rest sig pre
    have hfs := hs.frames f (by rw [hf]; exact List.mem_cons_self ..)
    have hT : HasTarget f := .inr hph
    have hlaw := hL.fin_ok f.tmpl f.made (hfs.ok hT)
    rw [← (ha.2 f rest hf).1] at hlaw
    have hne : pre ≠ .fail := by
      intro e
      rw [e] at htk
      rw [htaken hf ha.1 htk] at hlaw
      cases hlaw.1
    exact hpop hf f.mangles pre _ pre (fun _ h => h) (fun e => absurd e hne) (fun _ e => absurd e hne)
  | solved hf hph htk =>
    rename_i f rest sig ms
    exact hpop hf ms (.inst f.target) _ (.inst f.target) htk.more (by intro e; cases e) (by intro _ e; cases e)
  | dirty2 hf hph =>
    rename_i f rest sig
    have hfo := hi.frames f (by rw [hf]; exact List.mem_cons_self ..)
    have hcur := hr.solving f (by rw [hf]; exact List.mem_cons_self ..) hph
    have := hpop hf f.mangles f.current (finish st.insts f.target sig) (.inst f.target) (fun _ h => h)
      (by rw [hcur]; intro e; cases e) (by intro _ e; cases e)
    rw [putAll_own hfo.owns.2] at this
    exact this

/-- **A cached refusal is the right one.** In every history whose nested calls come from bodies being solved: a call without
literals is refused exactly when the template does not accept its types. -/
theorem right_refusal_partial {S : Solver} (hL : S.Laws) {st : State} (h : Reach S FromBodies st) {d : Done} (hd : d ∈ st.log)
    (hl : d.lit = false) : d.result = .fail ↔ S.ok d.tmpl d.call = false := by
  have hall : Inv st ∧ Sem S st ∧ Ref S st := by
    clear hd
    induction h with
    | init => exact ⟨Inv.init, Sem.init S, Ref.init S⟩
    | step _ ha hp he ih =>
      have e := step_eff ih.1 he
      exact ⟨step_inv ih.1 he, eff_sem hL ih.1 ih.2.1 ha e, eff_ref hL ih.1 ih.2.1 ih.2.2 ha hp e⟩
  constructor
  · intro e; exact hall.2.2.log d hd hl e
  · intro e
    cases hr : d.result with
    | fail => rfl
    | inst i =>
      obtain ⟨ins, _, _, h3⟩ := hall.2.1.log d hd hl i hr
      rw [h3.1] at e
      cases e

/-! ### instances stay -/

structure Live (st : State) : Prop where
  one : st.frames.length ≤ 1
  ent : ∀ p k i, st.specs p k = some (.inst i) → ∃ ins, st.insts[i]? = some ins ∧ ins.dead = false
  log : ∀ d ∈ st.log, ∀ i, d.result = .inst i → ∃ ins, st.insts[i]? = some ins ∧ ins.dead = false
  mine : ∀ f ∈ st.frames, HasTarget f → (∀ p k, st.specs p k = some (.inst f.target) → p = f.parent ∧ k ∈ f.mangles) ∧
    ∀ d ∈ st.log, d.result ≠ .inst f.target

theorem Live.init : Live State.init where
  one := by decide
  ent := by intro p k i h; cases h
  log := by intro d hd; cases hd
  mine := by intro f hf; cases hf

theorem live_finish {insts : List Inst} {j : Nat} {sig : List Slot} {i : Nat} (h : ∃ ins, insts[i]? = some ins ∧ ins.dead = false) :
    ∃ ins, (finish insts j sig)[i]? = some ins ∧ ins.dead = false := by
  obtain ⟨ins, h1, h2⟩ := h
  unfold finish
  rw [List.getElem?_modify, h1]
  by_cases e : j = i
  · simp only [e, if_true]; exact ⟨_, rfl, h2⟩
  · simp only [e, if_false]; exact ⟨_, rfl, h2⟩

theorem eff_live {st st' : State} {ev : Ev} (hi : Inv st) (hv : Live st) (hp : OneByOne st ev) (h : Eff st ev st') : Live st' := by
  have hnil : ∀ {f rest}, st.frames = f :: rest → rest = [] := by
    intro f rest hf
    have := hv.one
    rw [hf] at this
    cases rest with
    | nil => rfl
    | cons a b => simp at this
  have hlog : ∀ {insts : List Inst} (r : Done), (∀ d ∈ st.log, ∀ i, d.result = .inst i → ∃ ins, insts[i]? = some ins ∧ ins.dead = false) →
      (∀ i, r.result = .inst i → ∃ ins, insts[i]? = some ins ∧ ins.dead = false) →
      ∀ d ∈ st.log ++ [r], ∀ i, d.result = .inst i → ∃ ins, insts[i]? = some ins ∧ ins.dead = false := by
    intro insts r h0 h1 d hd
    rcases List.mem_append.mp hd with h | h
    · exact h0 d h
    · rw [List.mem_singleton] at h; rw [h]; exact h1
  have hpop : ∀ {f rest}, st.frames = f :: rest → ∀ (specs : Specs) (insts : List Inst) (r : Entry),
      (∀ p k i, specs p k = some (.inst i) → ∃ ins, insts[i]? = some ins ∧ ins.dead = false) →
      (∀ d ∈ st.log, ∀ i, d.result = .inst i → ∃ ins, insts[i]? = some ins ∧ ins.dead = false) →
      (∀ i, r = .inst i → ∃ ins, insts[i]? = some ins ∧ ins.dead = false) →
      Live ⟨specs, insts, rest, st.log ++ [doneBy f r]⟩ := by
    intro f rest hf specs insts r h1 h2 h3
    rw [hnil hf]
    exact ⟨by simp, h1, hlog _ h2 h3, by intro g hg; cases hg⟩
  have htl : ∀ {f rest}, st.frames = f :: rest → HasTarget f → ∃ ins, st.insts[f.target]? = some ins ∧ ins.dead = false := by
    intro f rest hf ht
    obtain ⟨fin, e⟩ := (hi.frames f (by rw [hf]; exact List.mem_cons_self ..)).target ht
    exact ⟨_, e, rfl⟩
  have hput : ∀ (p : Int) (ms : List Str) (e : Entry) (insts : List Inst),
      (∀ p k i, st.specs p k = some (.inst i) → ∃ ins, insts[i]? = some ins ∧ ins.dead = false) →
      (∀ i, e = .inst i → ∃ ins, insts[i]? = some ins ∧ ins.dead = false) →
      ∀ p' k i, putAll st.specs p ms e p' k = some (.inst i) → ∃ ins, insts[i]? = some ins ∧ ins.dead = false := by
    intro p ms e insts h1 h2 p' k i h
    unfold putAll at h
    split at h
    · injection h with h; exact h2 i h
    · exact h1 p' k i h
  have hsingle : ∀ {f rest}, st.frames = f :: rest → ∀ (f' : Frame) (specs : Specs) (insts : List Inst),
      (∀ p k i, specs p k = some (.inst i) → ∃ ins, insts[i]? = some ins ∧ ins.dead = false) →
      (∀ d ∈ st.log, ∀ i, d.result = .inst i → ∃ ins, insts[i]? = some ins ∧ ins.dead = false) →
      (HasTarget f' → (∀ p k, specs p k = some (.inst f'.target) → p = f'.parent ∧ k ∈ f'.mangles) ∧
        ∀ d ∈ st.log, d.result ≠ .inst f'.target) →
      Live ⟨specs, insts, f' :: rest, st.log⟩ := by
    intro f rest hf f' specs insts h1 h2 h3
    rw [hnil hf]
    refine ⟨by simp, h1, h2, ?_⟩
    intro g hg
    rw [List.mem_singleton] at hg
    rw [hg]; exact h3
  cases h with
  | hit h =>
    refine ⟨hv.one, hv.ent, hlog _ hv.log ?_, ?_⟩
    · intro i e; dsimp only at e; rw [e] at h; exact hv.ent _ _ _ h
    · intro f hf
      have : st.frames = [] := hp
      have hf' : f ∈ st.frames := hf
      rw [this] at hf'; cases hf'
  | enter =>
    have h0 : st.frames = [] := hp
    refine ⟨by simp [h0], hv.ent, hv.log, ?_⟩
    intro g hg
    rcases List.mem_cons.mp hg with e | e
    · rw [e]; rintro (c | c) <;> cases c
    · rw [h0] at e; cases e
  | errMatched hf hph he =>
    exact hsingle hf _ _ _ hv.ent hv.log (by rintro (c | c) <;> cases c)
  | errFailed hf hph he =>
    exact hpop hf _ _ _ hv.ent hv.log (by intro i e; cases e)
  | found hf hph he htk =>
    obtain ⟨m, _, _, hsp⟩ := htk
    exact hpop hf _ _ _ hv.ent hv.log (by intro i e; rw [e] at hsp; exact hv.ent _ _ _ hsp)
  | matched hf hph he htk =>
    exact hsingle hf _ _ _ (hput _ _ _ _ hv.ent (by intro i e; cases e)) hv.log (by rintro (c | c) <;> cases c)
  | failed hf hph he htk =>
    exact hpop hf _ _ _ (hput _ _ _ _ hv.ent (by intro i e; cases e)) hv.log (by intro i e; cases e)
  | rejected hf hph =>
    exact hpop hf _ _ _ hv.ent hv.log (by intro i e; cases e)
  | created hf hph he =>
    rename_i f rest
    have happ : ∀ i : Nat, (∃ ins : Inst, st.insts[i]? = some ins ∧ ins.dead = false) →
        ∃ ins : Inst, (st.insts ++ [⟨f.tmpl, f.parent, f.made, false, none⟩])[i]? = some ins ∧ ins.dead = false := by
      rintro i ⟨ins, h1, h2⟩
      obtain ⟨hl, _⟩ := List.getElem?_eq_some_iff.mp h1
      exact ⟨ins, by rw [List.getElem?_append_left hl]; exact h1, h2⟩
    refine hsingle hf _ _ _ (fun p k i h => happ i (hv.ent p k i h)) (fun d hd i h => happ i (hv.log d hd i h)) ?_
    intro _
    dsimp only
    constructor
    · intro p k h
      obtain ⟨ins, h1, _⟩ := hv.ent p k _ h
      have := (List.getElem?_eq_some_iff.mp h1).1
      omega
    · intro d hd e
      obtain ⟨ins, h1, _⟩ := hv.log d hd _ e
      have := (List.getElem?_eq_some_iff.mp h1).1
      omega
  | replaced1 hf hph htk =>
    obtain ⟨m, _, _, hsp⟩ := htk
    exact hpop hf _ _ _ (hput _ _ _ _ hv.ent (by intro i e; rw [e] at hsp; exact hv.ent _ _ _ hsp)) hv.log
      (by intro i e; rw [e] at hsp; exact hv.ent _ _ _ hsp)
  | published hf hph htk =>
    rename_i f rest sig ms
    have hT : HasTarget f := .inl hph
    refine hsingle hf _ _ _ (hput _ _ _ _ hv.ent (by intro i e; injection e with e; rw [← e]; exact htl hf hT)) hv.log ?_
    intro _
    have hm := hv.mine f (by rw [hf]; exact List.mem_cons_self ..) hT
    refine ⟨?_, hm.2⟩
    intro p k h
    dsimp only at h ⊢
    unfold putAll at h
    split at h
    · rename_i hc; exact hc
    · obtain ⟨a, b⟩ := hm.1 p k h
      exact ⟨a, htk.more k b⟩
  | native hf hph htk =>
    rename_i f rest sig ms
    have hT : HasTarget f := .inl hph
    refine hpop hf _ _ _ (hput _ _ _ _ (fun p k i h => live_finish (hv.ent p k i h)) ?_) (fun d hd i h => live_finish (hv.log d hd i h)) ?_
    · intro i e; injection e with e; rw [← e]; exact live_finish (htl hf hT)
    · intro i e; injection e with e; rw [← e]; exact live_finish (htl hf hT)
  | dirty1 hf hph =>
    rename_i f rest sig
    have hT : HasTarget f := .inl hph
    exact hsingle hf _ _ _ hv.ent hv.log (fun _ => hv.mine f (by rw [hf]; exact List.mem_cons_self ..) hT)
  | dirtyNative hf hph =>
    rename_i f rest sig
    have hT : HasTarget f := .inl hph
    refine hpop hf _ _ _ (fun p k i h => live_finish (hv.ent p k i h)) (fun d hd i h => live_finish (hv.log d hd i h)) ?_
    intro i e; injection e with e; rw [← e]; exact live_finish (htl hf hT)
  | replaced2 hf hph htk =>
    rename_i f rest sig pre
    have hT : HasTarget f := .inr hph
    have hfo := hi.frames f (by rw [hf]; exact List.mem_cons_self ..)
    have hm := hv.mine f (by rw [hf]; exact List.mem_cons_self ..) hT
    have hkl : ∀ i, i ≠ f.target → (∃ ins, st.insts[i]? = some ins ∧ ins.dead = false) →
        ∃ ins, (kill st.insts f.current)[i]? = some ins ∧ ins.dead = false := by
      rintro i hne h
      rcases hfo.cur with c | c
      · rw [c]; exact h
      · rw [c]
        show ∃ ins, (st.insts.modify f.target _)[i]? = some ins ∧ _
        rw [modify_other _ (Ne.symm hne)]
        exact h
    obtain ⟨m, _, hnk, hsp⟩ := htk
    have hpre : ∀ i, pre = .inst i → ∃ ins, (kill st.insts f.current)[i]? = some ins ∧ ins.dead = false := by
      intro i e
      rw [e] at hsp
      refine hkl i ?_ (hv.ent _ _ _ hsp)
      intro e2
      rw [e2] at hsp
      exact hnk (hm.1 _ _ hsp).2
    refine hpop hf _ _ _ ?_ ?_ hpre
    · intro p k i h
      unfold putAll at h
      split at h
      · injection h with h; exact hpre i h
      · rename_i hc
        refine hkl i ?_ (hv.ent p k i h)
        intro e
        rw [e] at h
        exact hc (hm.1 p k h)
    · intro d hd i h
      refine hkl i ?_ (hv.log d hd i h)
      intro e
      exact hm.2 d hd (by rw [h, e])
  | solved hf hph htk =>
    rename_i f rest sig ms
    have hT : HasTarget f := .inr hph
    refine hpop hf _ _ _ (hput _ _ _ _ (fun p k i h => live_finish (hv.ent p k i h)) ?_) (fun d hd i h => live_finish (hv.log d hd i h)) ?_
    · intro i e; injection e with e; rw [← e]; exact live_finish (htl hf hT)
    · intro i e; injection e with e; rw [← e]; exact live_finish (htl hf hT)
  | dirty2 hf hph =>
    rename_i f rest sig
    have hT : HasTarget f := .inr hph
    refine hpop hf _ _ _ (fun p k i h => live_finish (hv.ent p k i h)) (fun d hd i h => live_finish (hv.log d hd i h)) ?_
    intro i e; injection e with e; rw [← e]; exact live_finish (htl hf hT)

/-- **Instances stay.** When no call is made while an instance is being made, an instance given to a call is never destroyed,
then or later. -/
theorem instances_stay_partial {S : Solver} {st : State} (h : Reach S OneByOne st) {d : Done} (hd : d ∈ st.log) {i : Nat}
    (hr : d.result = .inst i) : ∃ ins, st.insts[i]? = some ins ∧ ins.dead = false := by
  have : Inv st ∧ Live st := by
    clear hd
    induction h with
    | init => exact ⟨Inv.init, Live.init⟩
    | step _ _ hp he ih => exact ⟨step_inv ih.1 he, eff_live ih.1 ih.2 hp (step_eff ih.1 he)⟩
  exact this.2.log d hd i hr

/-! ### no duplicates -/

def Uniq (st : State) : Prop :=
  ∀ i ins sig, st.insts[i]? = some ins → ins.final = some sig → ins.dead = false →
    ∃ m, mangleTypes sig = .ok m ∧ st.specs ins.parent (ins.tmpl.pre ++ m) = some (.inst i) ∧
      ∀ f ∈ st.frames, f.parent = ins.parent → ins.tmpl.pre ++ m ∉ f.mangles

theorem eff_uniq {st st' : State} {ev : Ev} (hi : Inv st) (hu : Uniq st) (hp : NoDirty st ev) (h : Eff st ev st') : Uniq st' := by
  -- names of finished instances are not touched
  have hkeep : ∀ {f rest}, st.frames = f :: rest → ∀ {args : List Slot} {ms : List Str}, Takes st f args ms → ∀ (e : Entry),
      ∀ i ins sig, st.insts[i]? = some ins → ins.final = some sig → ins.dead = false →
      ∃ m, mangleTypes sig = .ok m ∧ putAll st.specs f.parent ms e ins.parent (ins.tmpl.pre ++ m) = some (.inst i) ∧
        (f.parent = ins.parent → ins.tmpl.pre ++ m ∉ ms) ∧ ∀ g ∈ rest, g.parent = ins.parent → ins.tmpl.pre ++ m ∉ g.mangles := by
    intro f rest hf args ms htk e i ins sig h1 h2 h3
    obtain ⟨m, hm, hsp, hfr⟩ := hu i ins sig h1 h2 h3
    have hnot : f.parent = ins.parent → ins.tmpl.pre ++ m ∉ ms := by
      intro hpar hk
      obtain ⟨m', _, _, hy⟩ := htk.name
      rcases hy _ hk with c | ⟨_, c⟩
      · exact hfr f (by rw [hf]; exact List.mem_cons_self ..) hpar c
      · rw [hpar, hsp] at c; cases c
    refine ⟨m, hm, ?_, hnot, fun g hg => hfr g (by rw [hf]; exact List.mem_cons_of_mem _ hg)⟩
    unfold putAll
    rw [if_neg (fun c => hnot c.1.symm c.2)]
    exact hsp
  have hsame : ∀ {f rest}, st.frames = f :: rest → ∀ (e : Entry),
      ∀ i ins sig, st.insts[i]? = some ins → ins.final = some sig → ins.dead = false →
      ∃ m, mangleTypes sig = .ok m ∧ putAll st.specs f.parent f.mangles e ins.parent (ins.tmpl.pre ++ m) = some (.inst i) ∧
        (f.parent = ins.parent → ins.tmpl.pre ++ m ∉ f.mangles) ∧ ∀ g ∈ rest, g.parent = ins.parent → ins.tmpl.pre ++ m ∉ g.mangles := by
    intro f rest hf e i ins sig h1 h2 h3
    obtain ⟨m, hm, hsp, hfr⟩ := hu i ins sig h1 h2 h3
    refine ⟨m, hm, ?_, hfr f (by rw [hf]; exact List.mem_cons_self ..), fun g hg => hfr g (by rw [hf]; exact List.mem_cons_of_mem _ hg)⟩
    unfold putAll
    rw [if_neg (fun c => hfr f (by rw [hf]; exact List.mem_cons_self ..) c.1.symm c.2)]
    exact hsp
  -- the frame's instance is finished
  have hfin : ∀ {f rest}, st.frames = f :: rest → HasTarget f → ∀ {sig : List Slot} {ms : List Str}, Takes st f sig ms →
      ∀ r, Uniq ⟨putAll st.specs f.parent ms (.inst f.target), finish st.insts f.target sig, rest, r⟩ := by
    intro f rest hf ht sig ms htk r i ins sig' h1 h2 h3
    dsimp only at h1 ⊢
    have hfo := hi.frames f (by rw [hf]; exact List.mem_cons_self ..)
    obtain ⟨fin, e1⟩ := hfo.target ht
    unfold finish at h1
    by_cases e : f.target = i
    · subst e
      rw [List.getElem?_modify, e1] at h1
      simp only [if_true] at h1
      have h1 : some _ = some ins := h1
      injection h1 with h1
      rw [← h1] at h2 ⊢
      dsimp only at h2 ⊢
      injection h2 with h2
      obtain ⟨m, hm, hk, hy⟩ := htk.name
      refine ⟨m, by rw [← h2]; exact hm, ?_, ?_⟩
      · unfold putAll
        rw [if_pos ⟨rfl, hk⟩]
      · intro g hg hpar
        exact disj_ms hi hf hy g hg hpar.symm _ hk
    · rw [modify_other _ e] at h1
      obtain ⟨m, a, b, _, d⟩ := hkeep hf htk (.inst f.target) i ins sig' h1 h2 h3
      exact ⟨m, a, b, d⟩
  have hpop : ∀ {f rest}, st.frames = f :: rest → ∀ r, Uniq ⟨st.specs, st.insts, rest, r⟩ := by
    intro f rest hf r i ins sig h1 h2 h3
    obtain ⟨m, hm, hsp, hfr⟩ := hu i ins sig h1 h2 h3
    exact ⟨m, hm, hsp, fun g hg => hfr g (by rw [hf]; exact List.mem_cons_of_mem _ hg)⟩
  have hstay : ∀ {f rest}, st.frames = f :: rest → ∀ (f' : Frame), f'.parent = f.parent → f'.mangles = f.mangles →
      ∀ r, Uniq ⟨st.specs, st.insts, f' :: rest, r⟩ := by
    intro f rest hf f' e1 e2 r i ins sig h1 h2 h3
    obtain ⟨m, hm, hsp, hfr⟩ := hu i ins sig h1 h2 h3
    refine ⟨m, hm, hsp, ?_⟩
    intro g hg
    rcases List.mem_cons.mp hg with e | e
    · rw [e, e1, e2]; exact hfr f (by rw [hf]; exact List.mem_cons_self ..)
    · exact hfr g (by rw [hf]; exact List.mem_cons_of_mem _ e)
  cases h with
  | hit h => exact hu
  | enter =>
    intro i ins sig h1 h2 h3
    obtain ⟨m, hm, hsp, hfr⟩ := hu i ins sig h1 h2 h3
    refine ⟨m, hm, hsp, ?_⟩
    intro g hg
    rcases List.mem_cons.mp hg with e | e
    · rw [e]; intro _ c; cases c
    · exact hfr g e
  | errMatched hf hph he =>
    rename_i f rest fixed
    exact hstay hf { f with phase := .matched, made := fixed } rfl rfl _
  | errFailed hf hph he => exact hpop hf _
  | found hf hph he htk => exact hpop hf _
  | matched hf hph he htk =>
    intro i ins sig h1 h2 h3
    obtain ⟨m, a, b, c, d⟩ := hkeep hf htk .fail i ins sig h1 h2 h3
    refine ⟨m, a, b, ?_⟩
    intro g hg
    rcases List.mem_cons.mp hg with e | e
    · rw [e]; exact c
    · exact d g e
  | failed hf hph he htk =>
    intro i ins sig h1 h2 h3
    obtain ⟨m, a, b, c, d⟩ := hkeep hf htk .fail i ins sig h1 h2 h3
    exact ⟨m, a, b, d⟩
  | rejected hf hph => exact hpop hf _
  | created hf hph he =>
    rename_i f rest
    intro i ins sig h1 h2 h3
    dsimp only at h1 ⊢
    by_cases hl : i < st.insts.length
    · rw [List.getElem?_append_left hl] at h1
      exact hstay hf { f with phase := .created, target := st.insts.length } rfl rfl st.log i ins sig h1 h2 h3
    · rw [List.getElem?_append_right (by omega)] at h1
      have : i - st.insts.length = 0 := by
        have := (List.getElem?_eq_some_iff.mp h1).1
        simp at this
        omega
      rw [this] at h1
      simp at h1
      rw [← h1] at h2
      cases h2
  | replaced1 hf hph htk =>
    rename_i f rest sig native pre
    intro i ins sig h1 h2 h3
    obtain ⟨m, a, b, c, d⟩ := hsame hf pre i ins sig h1 h2 h3
    exact ⟨m, a, b, d⟩
  | published hf hph htk =>
    rename_i f rest sig ms
    intro i ins sig h1 h2 h3
    obtain ⟨m, a, b, c, d⟩ := hkeep hf htk (.inst f.target) i ins sig h1 h2 h3
    refine ⟨m, a, b, ?_⟩
    intro g hg
    rcases List.mem_cons.mp hg with e | e
    · rw [e]; exact c
    · exact d g e
  | native hf hph htk => exact hfin hf (.inl hph) htk _
  | dirty1 hf hph => cases hp
  | dirtyNative hf hph => cases hp
  | replaced2 hf hph htk =>
    rename_i f rest sig pre
    intro i ins sig h1 h2 h3
    dsimp only at h1 ⊢
    have h1' : st.insts[i]? = some ins := by
      cases hc : f.current with
      | fail => rw [hc] at h1; exact h1
      | inst j =>
        rw [hc] at h1
        have h1 : (st.insts.modify j fun x => { x with dead := true })[i]? = some ins := h1
        by_cases e : j = i
        · rw [List.getElem?_modify] at h1
          simp only [e, if_true] at h1
          cases hx : st.insts[i]? with
          | none => rw [hx] at h1; cases h1
          | some x =>
            rw [hx] at h1
            have h1 : some ({ x with dead := true } : Inst) = some ins := h1
            injection h1 with h1
            rw [← h1] at h3
            cases h3
        · rw [modify_other _ e] at h1; exact h1
    obtain ⟨m, a, b, c, d⟩ := hsame hf pre i ins sig h1' h2 h3
    exact ⟨m, a, b, d⟩
  | solved hf hph htk => exact hfin hf (.inr hph) htk _
  | dirty2 hf hph => cases hp

/-- **No duplicates.** In every history, nested calls included, in which no signature goes unrecorded: two instances that are
solved and not destroyed, of the same template in the same scope, have different argument types. -/
theorem no_duplicates_partial {S : Solver} {st : State} (h : Reach S NoDirty st) {i j : Nat} {a b : Inst}
    (ha : st.insts[i]? = some a) (hb : st.insts[j]? = some b) (hta : a.tmpl = b.tmpl) (hpa : a.parent = b.parent)
    {sig : List Slot} (hfa : a.final = some sig) (hfb : b.final = some sig) (hda : a.dead = false) (hdb : b.dead = false) : i = j := by
  have : Inv st ∧ Uniq st := by
    clear ha hb
    induction h with
    | init => exact ⟨Inv.init, fun i ins sig h => by simp [State.init] at h⟩
    | step _ _ hp he ih => exact ⟨step_inv ih.1 he, eff_uniq ih.1 ih.2 hp (step_eff ih.1 he)⟩
  obtain ⟨m, e1, e2, _⟩ := this.2 i a sig ha hfa hda
  obtain ⟨n, e3, e4, _⟩ := this.2 j b sig hb hfb hdb
  rw [e1] at e3
  injection e3 with e3
  rw [← hta, ← hpa, ← e3, e2] at e4
  injection e4 with e4
  injection e4

end Verif.SpecCache
