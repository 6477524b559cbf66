import Verif.SpecCacheInv
/-! # C96: what a step does to the cache -/
namespace Verif.SpecCache
open Verif

def doneBy (f : Frame) (e : Entry) : Done := ⟨f.tmpl, f.parent, f.call, f.lit, e⟩

/-- names the frame has, and perhaps one more, so far unbound -/
structure Takes (st : State) (f : Frame) (args : List Slot) (ms : List Str) : Prop where
  name : ∃ m, mangleTypes args = .ok m ∧ f.tmpl.pre ++ m ∈ ms ∧
    ∀ y ∈ ms, y ∈ f.mangles ∨ (y = f.tmpl.pre ++ m ∧ st.specs f.parent y = none)
  nodup : ms.Nodup
  more : ∀ y ∈ f.mangles, y ∈ ms

/-- the name is somebody else's -/
def Taken (st : State) (f : Frame) (args : List Slot) (pre : Entry) : Prop :=
  ∃ m, mangleTypes args = .ok m ∧ f.tmpl.pre ++ m ∉ f.mangles ∧ st.specs f.parent (f.tmpl.pre ++ m) = some pre

inductive Eff (st : State) : Ev → State → Prop where
  | hit {t p slots lit error mangle pre} (h : st.specs p (t.pre ++ mangle) = some pre) :
      Eff st (.call t p slots lit error mangle) { st with log := st.log ++ [⟨t, p, slots, lit, pre⟩] }
  | enter {t p slots lit error mangle} :
      Eff st (.call t p slots lit error mangle)
        { st with frames := ⟨p, t, slots, lit, error, t.pre ++ mangle, .entered, [], .fail, [], 0⟩ :: st.frames }
  | errMatched {f rest fixed} (hf : st.frames = f :: rest) (hp : f.phase = .entered) (he : f.error = true) :
      Eff st (.match_ fixed true) { st with frames := { f with phase := .matched, made := fixed } :: rest }
  | errFailed {f rest fixed} (hf : st.frames = f :: rest) (hp : f.phase = .entered) (he : f.error = true) :
      Eff st (.match_ fixed false) ⟨st.specs, st.insts, rest, st.log ++ [doneBy f .fail]⟩
  | found {f rest fixed ok pre} (hf : st.frames = f :: rest) (hp : f.phase = .entered) (he : f.error = false)
      (h : Taken st f fixed pre) :
      Eff st (.match_ fixed ok) ⟨st.specs, st.insts, rest, st.log ++ [doneBy f pre]⟩
  | matched {f rest fixed ms} (hf : st.frames = f :: rest) (hp : f.phase = .entered) (he : f.error = false)
      (h : Takes st f fixed ms) :
      Eff st (.match_ fixed true) ⟨putAll st.specs f.parent ms .fail, st.insts,
        { f with mangles := ms, current := .fail, phase := .matched, made := fixed } :: rest, st.log⟩
  | failed {f rest fixed ms} (hf : st.frames = f :: rest) (hp : f.phase = .entered) (he : f.error = false)
      (h : Takes st f fixed ms) :
      Eff st (.match_ fixed false) ⟨putAll st.specs f.parent ms .fail, st.insts, rest, st.log ++ [doneBy f .fail]⟩
  | rejected {f rest} (hf : st.frames = f :: rest) (hp : f.phase = .matched) :
      Eff st .reject ⟨st.specs, st.insts, rest, st.log ++ [doneBy f .fail]⟩
  | created {f rest} (hf : st.frames = f :: rest) (hp : f.phase = .matched) (he : f.error = false) :
      Eff st .create ⟨st.specs, st.insts ++ [⟨f.tmpl, f.parent, f.made, false, none⟩],
        { f with phase := .created, target := st.insts.length } :: rest, st.log⟩
  | replaced1 {f rest sig native pre} (hf : st.frames = f :: rest) (hp : f.phase = .created) (h : Taken st f sig pre) :
      Eff st (.first sig native false)
        ⟨putAll st.specs f.parent f.mangles pre, st.insts, rest, st.log ++ [doneBy f pre]⟩
  | published {f rest sig ms} (hf : st.frames = f :: rest) (hp : f.phase = .created) (h : Takes st f sig ms) :
      Eff st (.first sig false false) ⟨putAll st.specs f.parent ms (.inst f.target), st.insts,
        { f with mangles := ms, current := .inst f.target, phase := .solving } :: rest, st.log⟩
  | native {f rest sig ms} (hf : st.frames = f :: rest) (hp : f.phase = .created) (h : Takes st f sig ms) :
      Eff st (.first sig true false) ⟨putAll st.specs f.parent ms (.inst f.target), finish st.insts f.target sig,
        rest, st.log ++ [doneBy f (.inst f.target)]⟩
  | dirty1 {f rest sig} (hf : st.frames = f :: rest) (hp : f.phase = .created) :
      Eff st (.first sig false true) { st with frames := { f with phase := .solving } :: rest }
  | dirtyNative {f rest sig} (hf : st.frames = f :: rest) (hp : f.phase = .created) :
      Eff st (.first sig true true) ⟨st.specs, finish st.insts f.target sig, rest, st.log ++ [doneBy f (.inst f.target)]⟩
  | replaced2 {f rest sig pre} (hf : st.frames = f :: rest) (hp : f.phase = .solving) (h : Taken st f sig pre) :
      Eff st (.last sig false)
        ⟨putAll st.specs f.parent f.mangles pre, kill st.insts f.current, rest, st.log ++ [doneBy f pre]⟩
  | solved {f rest sig ms} (hf : st.frames = f :: rest) (hp : f.phase = .solving) (h : Takes st f sig ms) :
      Eff st (.last sig false) ⟨putAll st.specs f.parent ms (.inst f.target), finish st.insts f.target sig,
        rest, st.log ++ [doneBy f (.inst f.target)]⟩
  | dirty2 {f rest sig} (hf : st.frames = f :: rest) (hp : f.phase = .solving) :
      Eff st (.last sig true) ⟨st.specs, finish st.insts f.target sig, rest, st.log ++ [doneBy f (.inst f.target)]⟩

theorem step_eff {st st' : State} {ev : Ev} (hi : Inv st) (h : step st ev = .ok st') : Eff st ev st' := by
  cases ev with
  | call tmpl parent slots lit error mangle =>
    simp only [step] at h
    cases hs : st.specs parent (tmpl.pre ++ mangle) with
    | none => rw [hs] at h; injection h with h; rw [← h]; exact .enter
    | some pre =>
      rw [hs] at h
      dsimp only at h
      by_cases hb : (decide (pre ≠ Entry.fail) || !error) = true
      · rw [if_pos hb] at h
        injection h with h
        rw [← h]
        exact .hit hs
      · rw [if_neg hb] at h
        injection h with h; rw [← h]; exact .enter
  | match_ fixed ok =>
    simp only [step] at h
    cases hf : st.frames with
    | nil => rw [hf] at h; cases h
    | cons f rest =>
      rw [hf] at h
      dsimp only at h
      have hfo := hi.frames f (by rw [hf]; exact List.mem_cons_self ..)
      by_cases hp : f.phase ≠ .entered
      · rw [if_pos hp] at h; cases h
      · rw [if_neg hp] at h
        have hp : f.phase = .entered := Decidable.not_not.mp hp
        have hcf : f.current = .fail := hfo.early (by rw [hp]; decide)
        by_cases herr : f.error = true
        · rw [if_pos herr] at h
          cases ok with
          | true =>
            rw [if_pos rfl] at h
            injection h with h
            rw [← h]
            exact .errMatched hf hp herr
          | false =>
            rw [if_neg (by decide)] at h
            injection h with h
            rw [← h]
            unfold State.pop
            rw [hf]
            exact .errFailed hf hp herr
        · rw [if_neg herr] at h
          have herr : f.error = false := by simpa using herr
          obtain ⟨x, hx⟩ := hfo.pre
          cases hm : mangleTypes fixed with
          | error e => simp [resetArgs, hm] at h
          | ok m =>
            rcases resetArgs_spec (insts := st.insts) (allow := false) hfo.owns hx (.inl hcf) hm with
              ⟨h1, pre, h2, h3⟩ | ⟨ms, h1, h2, h3, h4, h5⟩
            · rw [h3] at h
              dsimp only at h
              injection h with h
              rw [← h]
              have hms := hfo.entered hp
              have e := Eff.found (ok := ok) hf hp herr ⟨m, hm, h1, h2⟩
              have e2 : putAll st.specs f.parent f.mangles pre = st.specs := by
                rw [hms]; funext a b; simp [putAll]
              have e3 : kill st.insts f.current = st.insts := by rw [hcf]; rfl
              rw [e2, e3]
              exact e
            · rw [h5] at h
              dsimp only at h
              rw [hcf] at h
              have ht : Takes st f fixed ms := ⟨⟨m, hm, h1, h3⟩, h2, h4⟩
              have hown : Owns (putAll st.specs f.parent ms .fail) { f with mangles := ms, current := .fail } := by
                refine ⟨h2, ?_⟩
                intro y hy
                show putAll st.specs f.parent ms .fail f.parent y = some .fail
                unfold putAll
                rw [if_pos ⟨rfl, hy⟩]
              cases ok with
              | true =>
                rw [if_pos rfl] at h
                injection h with h
                rw [← h]
                exact .matched hf hp herr ht
              | false =>
                rw [if_neg (by decide)] at h
                rw [resetSpec_eq hown .fail false (.inl rfl)] at h
                dsimp only at h
                injection h with h
                rw [← h, putAll_putAll]
                exact .failed hf hp herr ht
  | reject =>
    simp only [step] at h
    cases hf : st.frames with
    | nil => rw [hf] at h; cases h
    | cons f rest =>
      rw [hf] at h
      dsimp only at h
      have hfo := hi.frames f (by rw [hf]; exact List.mem_cons_self ..)
      by_cases hp : f.phase ≠ .matched
      · rw [if_pos hp] at h; cases h
      · rw [if_neg hp] at h
        have hp : f.phase = .matched := Decidable.not_not.mp hp
        have hcf : f.current = .fail := hfo.early (by rw [hp]; decide)
        by_cases herr : f.error = true
        · rw [if_pos herr] at h
          injection h with h
          rw [← h]
          unfold State.pop
          rw [hf]
          exact .rejected hf hp
        · rw [if_neg herr, resetSpec_eq hfo.owns .fail false (.inl hcf)] at h
          dsimp only at h
          injection h with h
          rw [← h]
          rw [putAll_own (by rw [← hcf]; exact hfo.owns.2)]
          exact Eff.rejected (f := f) hf hp
  | create =>
    simp only [step] at h
    cases hf : st.frames with
    | nil => rw [hf] at h; cases h
    | cons f rest =>
      rw [hf] at h
      dsimp only at h
      by_cases hp : f.phase ≠ .matched
      · rw [if_pos hp] at h; cases h
      · rw [if_neg hp] at h
        have hp : f.phase = .matched := Decidable.not_not.mp hp
        by_cases herr : f.error = true
        · rw [if_pos herr] at h; cases h
        · rw [if_neg herr] at h
          injection h with h
          rw [← h]
          exact .created hf hp (by simpa using herr)
  | first sig native dirty =>
    simp only [step] at h
    cases hf : st.frames with
    | nil => rw [hf] at h; cases h
    | cons f rest =>
      rw [hf] at h
      dsimp only at h
      have hfo := hi.frames f (by rw [hf]; exact List.mem_cons_self ..)
      by_cases hp : f.phase ≠ .created
      · rw [if_pos hp] at h; cases h
      · rw [if_neg hp] at h
        have hp : f.phase = .created := Decidable.not_not.mp hp
        have hcf : f.current = .fail := hfo.early (by rw [hp]; decide)
        cases dirty with
        | true =>
          rw [if_pos rfl] at h
          cases native with
          | true =>
            rw [if_pos rfl] at h
            injection h with h
            rw [← h]
            exact .dirtyNative hf hp
          | false =>
            rw [if_neg (by decide)] at h
            injection h with h
            rw [← h]
            exact .dirty1 hf hp
        | false =>
          rw [if_neg (by decide)] at h
          obtain ⟨x, hx⟩ := hfo.pre
          cases hm : mangleTypes sig with
          | error e => simp [publish, resetArgs, hm] at h
          | ok m =>
            rcases publish_spec (b := native) hfo.owns hx (.inl hcf) hfo.cur hm with ⟨h1, pre, h2, h3⟩ | ⟨ms, h1, h2, h3, h4, h5⟩
            · rw [h3] at h
              dsimp only at h
              injection h with h
              rw [← h]
              have e3 : kill st.insts f.current = st.insts := by rw [hcf]; rfl
              rw [e3]
              unfold State.pop
              dsimp only
              try rw [hf]
              exact .replaced1 hf hp ⟨m, hm, h1, h2⟩
            · rw [h5] at h
              dsimp only at h
              have ht : Takes st f sig ms := ⟨⟨m, hm, h1, h3⟩, h2, h4⟩
              cases native with
              | true =>
                rw [if_pos rfl] at h
                injection h with h
                rw [← h]
                unfold State.pop
                dsimp only
                try rw [hf]
                exact .native hf hp ht
              | false =>
                rw [if_neg (by decide)] at h
                injection h with h
                rw [← h]
                exact .published hf hp ht
  | last sig dirty =>
    simp only [step] at h
    cases hf : st.frames with
    | nil => rw [hf] at h; cases h
    | cons f rest =>
      rw [hf] at h
      dsimp only at h
      have hfo := hi.frames f (by rw [hf]; exact List.mem_cons_self ..)
      by_cases hp : f.phase ≠ .solving
      · rw [if_pos hp] at h; cases h
      · rw [if_neg hp] at h
        have hp : f.phase = .solving := Decidable.not_not.mp hp
        cases dirty with
        | true =>
          rw [if_pos rfl] at h
          injection h with h
          rw [← h]
          exact .dirty2 hf hp
        | false =>
          rw [if_neg (by decide)] at h
          obtain ⟨x, hx⟩ := hfo.pre
          cases hm : mangleTypes sig with
          | error e => simp [publish, resetArgs, hm] at h
          | ok m =>
            rcases publish_spec (b := true) hfo.owns hx (.inr rfl) hfo.cur hm with ⟨h1, pre, h2, h3⟩ | ⟨ms, h1, h2, h3, h4, h5⟩
            · rw [h3] at h
              dsimp only at h
              injection h with h
              rw [← h]
              unfold State.pop
              dsimp only
              try rw [hf]
              exact .replaced2 hf hp ⟨m, hm, h1, h2⟩
            · rw [h5] at h
              dsimp only at h
              have ht : Takes st f sig ms := ⟨⟨m, hm, h1, h3⟩, h2, h4⟩
              injection h with h
              rw [← h]
              unfold State.pop
              dsimp only
              try rw [hf]
              exact .solved hf hp ht

/-! ### theorems about every history -/

/-- **Instances are never mixed up between templates.** Whatever the history, nested calls included: a call that is given an
instance is given an instance of the template it asked for, in the scope it asked for it. -/
theorem isolated {evs : List Ev} {st : State} (h : exec State.init evs = .ok st) {d : Done} (hd : d ∈ st.log) {i : Nat}
    (hr : d.result = .inst i) : ∃ ins, st.insts[i]? = some ins ∧ ins.tmpl = d.tmpl ∧ ins.parent = d.parent :=
  (exec_inv evs Inv.init h).log d hd i hr

/-- the types a step wants to write into a name -/
def Ev.names : Ev → List Slot
  | .match_ fixed _ => fixed
  | .first sig _ _ => sig
  | .last sig _ => sig
  | _ => []

/-- **The cache never trips over itself.** Whatever the history, no step stops the compiler with the cache's own
"About to screw up royally, replacing spec": the only way to stop is to find, in the run that collects error messages, that
the call is fine after all. -/
theorem never_screws_up {evs : List Ev} {st : State} (h : exec State.init evs = .ok st) {ev : Ev}
    (hn : ∀ t, some t ∈ ev.names → Ty.Ok t) (hb : step st ev = .error .bug) :
    ev = .create ∧ ∃ f rest, st.frames = f :: rest ∧ f.phase = .matched ∧ f.error = true := by
  have hi := exec_inv evs Inv.init h
  cases ev with
  | call tmpl parent slots lit error mangle =>
    simp only [step] at hb
    cases hs : st.specs parent (tmpl.pre ++ mangle) with
    | none => rw [hs] at hb; cases hb
    | some pre =>
      rw [hs] at hb
      dsimp only at hb
      split at hb <;> cases hb
  | match_ fixed ok =>
    exfalso
    have hm := mangleTypes_eq fixed hn
    simp only [step] at hb
    cases hf : st.frames with
    | nil => rw [hf] at hb; cases hb
    | cons f rest =>
      rw [hf] at hb
      dsimp only at hb
      have hfo := hi.frames f (by rw [hf]; exact List.mem_cons_self ..)
      by_cases hp : f.phase ≠ .entered
      · rw [if_pos hp] at hb; cases hb
      · rw [if_neg hp] at hb
        have hp : f.phase = .entered := Decidable.not_not.mp hp
        have hcf : f.current = .fail := hfo.early (by rw [hp]; decide)
        by_cases herr : f.error = true
        · rw [if_pos herr] at hb
          split at hb <;> cases hb
        · rw [if_neg herr] at hb
          obtain ⟨x, hx⟩ := hfo.pre
          rcases resetArgs_spec (insts := st.insts) (allow := false) hfo.owns hx (.inl hcf) hm with
            ⟨h1, pre, h2, h3⟩ | ⟨ms, h1, h2, h3, h4, h5⟩
          · rw [h3] at hb; cases hb
          · rw [h5] at hb
            dsimp only at hb
            rw [hcf] at hb
            have hown : Owns (putAll st.specs f.parent ms .fail) { f with mangles := ms, current := .fail } := by
              refine ⟨h2, ?_⟩
              intro y hy
              show putAll st.specs f.parent ms .fail f.parent y = some .fail
              unfold putAll
              rw [if_pos ⟨rfl, hy⟩]
            cases ok with
            | true => rw [if_pos rfl] at hb; cases hb
            | false =>
              rw [if_neg (by decide)] at hb
              rw [resetSpec_eq hown .fail false (.inl rfl)] at hb
              cases hb
  | reject =>
    exfalso
    simp only [step] at hb
    cases hf : st.frames with
    | nil => rw [hf] at hb; cases hb
    | cons f rest =>
      rw [hf] at hb
      dsimp only at hb
      have hfo := hi.frames f (by rw [hf]; exact List.mem_cons_self ..)
      by_cases hp : f.phase ≠ .matched
      · rw [if_pos hp] at hb; cases hb
      · rw [if_neg hp] at hb
        have hp : f.phase = .matched := Decidable.not_not.mp hp
        have hcf : f.current = .fail := hfo.early (by rw [hp]; decide)
        by_cases herr : f.error = true
        · rw [if_pos herr] at hb; cases hb
        · rw [if_neg herr, resetSpec_eq hfo.owns .fail false (.inl hcf)] at hb
          cases hb
  | create =>
    refine ⟨rfl, ?_⟩
    simp only [step] at hb
    cases hf : st.frames with
    | nil => rw [hf] at hb; cases hb
    | cons f rest =>
      rw [hf] at hb
      dsimp only at hb
      by_cases hp : f.phase ≠ .matched
      · rw [if_pos hp] at hb; cases hb
      · rw [if_neg hp] at hb
        by_cases herr : f.error = true
        · exact ⟨f, rest, rfl, Decidable.not_not.mp hp, herr⟩
        · rw [if_neg herr] at hb; cases hb
  | first sig native dirty =>
    exfalso
    have hm := mangleTypes_eq sig hn
    simp only [step] at hb
    cases hf : st.frames with
    | nil => rw [hf] at hb; cases hb
    | cons f rest =>
      rw [hf] at hb
      dsimp only at hb
      have hfo := hi.frames f (by rw [hf]; exact List.mem_cons_self ..)
      by_cases hp : f.phase ≠ .created
      · rw [if_pos hp] at hb; cases hb
      · rw [if_neg hp] at hb
        have hp : f.phase = .created := Decidable.not_not.mp hp
        have hcf : f.current = .fail := hfo.early (by rw [hp]; decide)
        cases dirty with
        | true => rw [if_pos rfl] at hb; split at hb <;> cases hb
        | false =>
          rw [if_neg (by decide)] at hb
          obtain ⟨x, hx⟩ := hfo.pre
          rcases publish_spec (b := native) hfo.owns hx (.inl hcf) hfo.cur hm with ⟨h1, pre, h2, h3⟩ | ⟨ms, h1, h2, h3, h4, h5⟩
          · rw [h3] at hb; cases hb
          · rw [h5] at hb; dsimp only at hb; split at hb <;> cases hb
  | last sig dirty =>
    exfalso
    have hm := mangleTypes_eq sig hn
    simp only [step] at hb
    cases hf : st.frames with
    | nil => rw [hf] at hb; cases hb
    | cons f rest =>
      rw [hf] at hb
      dsimp only at hb
      have hfo := hi.frames f (by rw [hf]; exact List.mem_cons_self ..)
      by_cases hp : f.phase ≠ .solving
      · rw [if_pos hp] at hb; cases hb
      · rw [if_neg hp] at hb
        cases dirty with
        | true => rw [if_pos rfl] at hb; cases hb
        | false =>
          rw [if_neg (by decide)] at hb
          obtain ⟨x, hx⟩ := hfo.pre
          rcases publish_spec (b := true) hfo.owns hx (.inr rfl) hfo.cur hm with ⟨h1, pre, h2, h3⟩ | ⟨ms, h1, h2, h3, h4, h5⟩
          · rw [h3] at hb; cases hb
          · rw [h5] at hb; cases hb

end Verif.SpecCache
