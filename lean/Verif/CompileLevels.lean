import Verif.CompileDeps
/-!
# Compiling level by level
-/
namespace Verif.Compile
open Verif

variable {Out : Type} {X : Front Out} {fs : Files}

theorem lt_of_get {st : St Out} {i : Nat} {m : Mod Out} (hm : st[i]? = some m) : i < st.length := by
  rcases Nat.lt_or_ge i st.length with h | h
  · exact h
  · rw [List.getElem?_eq_none h] at hm; cases hm

/-- Two modules of the same name are the same. -/
theorem J.same {st : St Out} (hj : J X fs st) {i k : Nat} {m x : Mod Out} (hm : st[i]? = some m) (hx : st[k]? = some x)
    (hf : m.fname = x.fname) : i = k ∧ m = x := by
  have a1 : (st.map (·.fname))[i]? = some x.fname := by rw [List.getElem?_map, hm]; simp [hf]
  have a2 : (st.map (·.fname))[k]? = some x.fname := by rw [List.getElem?_map, hx]; simp
  have hk : i < (st.map (·.fname)).length := by rw [List.length_map]; exact lt_of_get hm
  have : i = k := (List.getElem?_inj hk hj.nodup).1 (a1.trans a2.symm)
  subst this
  rw [hm] at hx; cases hx; exact ⟨rfl, rfl⟩

/-! ## What a program means -/

theorem Reach.trans {f g h : Str} (h1 : Reach X fs f g) (h2 : Reach X fs g h) : Reach X fs f h := by
  induction h1 with
  | refl => exact h2
  | step hi _ ih => exact .step hi (ih h2)

theorem Reach.snoc {f g h : Str} (h1 : Reach X fs f g) (h2 : Imports X fs g h) : Reach X fs f h :=
  h1.trans (.step h2 (.refl h))

theorem Means.imports {f : Str} {o : Out} (h : Means X fs f o) {g : Str} (hi : Imports X fs f g) : ∃ o', Means X fs g o' := by
  cases h with
  | mk _ pats outs _ hne hp hlen hm hs =>
    obtain ⟨_, pats', hp', p, hpp, rfl⟩ := hi
    rw [hp] at hp'; cases hp'
    obtain ⟨k, hk, rfl⟩ := List.getElem_of_mem hpp
    exact ⟨_, hm k hk⟩

theorem Means.reach {f g : Str} (hr : Reach X fs f g) {o : Out} (h : Means X fs f o) : ∃ o', Means X fs g o' := by
  induction hr generalizing o with
  | refl => exact ⟨o, h⟩
  | step hi _ ih => obtain ⟨o', h'⟩ := h.imports hi; exact ih h'

/-- A file compiles to at most one output. -/
theorem means_unique {f : Str} {o o' : Out} (h : Means X fs f o) (h' : Means X fs f o') : o = o' := by
  induction h generalizing o' with
  | mk f pats outs o hne hp hlen hm hs ih =>
    cases h' with
    | mk _ pats' outs' _ hne' hp' hlen' hm' hs' =>
      rw [hp] at hp'; cases hp'
      have : outs = outs' := by
        apply List.ext_getElem (by omega)
        intro k h1 h2
        exact ih k (by omega) (hm' k (by omega))
      subst this
      rw [hs] at hs'; cases hs'; rfl

/-- Nothing on an import circle compiles. -/
theorem means_no_circle {g : Str} {o : Out} (h : Means X fs g o) : ∀ h', Imports X fs g h' → Reach X fs h' g → False := by
  induction h with
  | mk f pats outs o hne hp hlen hm hs ih =>
    intro h' hi hb
    have hi0 := hi
    obtain ⟨_, pats', hp', p, hpp, rfl⟩ := hi
    rw [hp] at hp'; cases hp'
    obtain ⟨k, hk, rfl⟩ := List.getElem_of_mem hpp
    generalize hg : X.resolve fs f pats[k] = g at hb hi0
    have ih := ih k hk
    rw [hg] at ih
    cases hb with
    | refl => exact ih _ hi0 (.refl _)
    | step h1 h2 => exact ih _ h1 (h2.snoc hi0)

/-- What compiles has no fault. -/
theorem means_no_fault {prel f : Str} {o : Out} (h : Means X fs f o) (hpre : ¬ Reach X fs f prel) (e : Err) : ¬ Fault X fs prel f e := by
  intro hf
  cases hf with
  | circle g h' hr hi hb => obtain ⟨o', hg⟩ := h.reach hr; exact means_no_circle hg _ hi hb
  | prelude hr => exact hpre hr
  | missing g hr he => obtain ⟨o', hg⟩ := h.reach hr; cases hg; contradiction
  | parse g e hr hne he =>
    obtain ⟨o', hg⟩ := h.reach hr
    cases hg with
    | mk _ pats outs _ hne hp hlen hm hs => rw [hp] at he; cases he
  | check g pats outs e hr hne hp hlen hi he =>
    obtain ⟨o', hg⟩ := h.reach hr
    cases hg with
    | mk _ pats' outs' _ hne' hp' hlen' hm' hs' =>
      rw [hp] at hp'; cases hp'
      have : outs = outs' := by
        apply List.ext_getElem (by omega)
        intro k h1 h2
        exact means_unique (hi k (by omega)) (hm' k (by omega))
      subst this
      rw [he] at hs'; cases hs'

/-- The outputs in a consistent module list are those of the specification. -/
theorem J.means {st : St Out} (hj : J X fs st) : ∀ (d i : Nat) (m : Mod Out) (o : Out), i ≠ 0 → st[i]? = some m → m.order ≤ d →
    m.out = some o → Means X fs m.fname o := by
  intro d
  induction d with
  | zero =>
    intro i m o hi hm hd ho
    have := hj.blank i m hi hm (by omega)
    rw [ho] at this; cases this
  | succ d ih =>
    intro i m o hi hm hd ho
    have hne : m.order ≠ 0 := fun h => by rw [hj.blank i m hi hm h] at ho; cases ho
    obtain ⟨imps, h1, h2, h3, h4⟩ := hj.good i m hi hm hne
    obtain ⟨imps', outs, h1', h2', h3'⟩ := hj.fresh i m o hi hm ho
    rw [h3] at h1'; cases h1'
    have hlen : outs.length = imps.length := by
      have := congrArg List.length h2'; simp at this; exact this.symm
    refine .mk m.fname (imps.map (·.1)) outs o h1 h2 (by simp [hlen]) ?_ h3'
    intro k hk
    have hk : k < imps.length := by simpa using hk
    have hmem : imps[k] ∈ imps := List.getElem_mem hk
    obtain ⟨m', e', a, b, c⟩ := h4 imps[k].1 imps[k].2 hmem
    have hout : m'.out = some (outs[k]'(by omega)) := by
      have := congrArg (fun l => l[k]?) h2'
      simp only [List.getElem?_map, List.getElem?_eq_getElem hk, List.getElem?_eq_getElem (show k < outs.length by omega), Option.map_some] at this
      rw [e'] at this
      exact Option.some.inj this
    have := ih imps[k].2 m' _ (hj.order_inp e' b).1 e' (by omega) hout
    rw [a] at this
    simpa using this

/-! ## Errors of the discovery -/

/-- The files being read are on the path of imports that leads to `f`. -/
def Path (X : Front Out) (fs : Files) (st : St Out) (f : Str) : Prop :=
  ∀ (k : Nat) (m : Mod Out), k ≠ 0 → st[k]? = some m → Busy m → ∃ h, Imports X fs m.fname h ∧ Reach X fs h f

def prelName (st : St Out) : Str := ((st[0]?).map (·.fname)).getD []

theorem Fault.lift {prel f g : Str} (hi : Imports X fs f g) {e : Err} (h : Fault X fs prel g e) : Fault X fs prel f e := by
  cases h with
  | circle g h' hr h1 h2 => exact .circle g h' (.step hi hr) h1 h2
  | prelude hr => exact .prelude (.step hi hr)
  | missing g hr he => exact .missing g (.step hi hr) he
  | parse g e hr hne he => exact .parse g e (.step hi hr) hne he
  | check g pats outs e hr hne hp hlen hm he => exact .check g pats outs e (.step hi hr) hne hp hlen hm he

theorem imports_error (rec : St Out → Str → St Out × Except Err (Nat × Nat)) (hr : Spec X fs rec) (prel : Str)
    (hf : ∀ (st : St Out) (f : Str) st' e, J X fs st → prelName st = prel → Path X fs st f → rec st f = (st', .error e) →
      e = .fuel ∨ Fault X fs prel f e) (f : Str) (ps : List Str) :
    ∀ (st : St Out) (depth : Nat) (done : List (Str × Nat)) st' e, J X fs st → prelName st = prel →
    (∀ p ∈ ps, Imports X fs f (X.resolve fs f p)) →
    (∀ p ∈ ps, Path X fs st (X.resolve fs f p)) →
    imports X fs rec f ps st depth done = (st', .error e) → e = .fuel ∨ Fault X fs prel f e := by
  induction ps with
  | nil => intro st depth done st' e _ _ _ _ h; rw [imports] at h; cases h
  | cons p ps ih =>
    intro st depth done st' e hj hpr hps hpath h
    rw [imports] at h
    cases hc : rec st (X.resolve fs f p) with
    | mk st1 r1 =>
      rw [hc] at h
      obtain ⟨j1, e1, n1, k1⟩ := hr _ _ _ _ hj hc
      cases r1 with
      | error e' =>
        cases h
        rcases hf _ _ _ _ hj hpr (hpath p List.mem_cons_self) hc with h | h
        · exact .inl h
        · exact .inr (h.lift (hps p List.mem_cons_self))
      | ok v =>
        obtain ⟨modid, order⟩ := v
        dsimp only at h
        obtain ⟨⟨hd0, m, em, fm, om⟩, b1⟩ := k1 modid order rfl
        have hz : modid ≠ 0 := (j1.order_inp em (by rw [om]; exact hd0)).1
        rw [if_neg hz] at h
        refine ih _ _ _ _ _ j1 ?_ (fun q hq => hps q (List.mem_cons_of_mem _ hq)) ?_ h
        · rw [← hpr]
          obtain ⟨m0, e0, _⟩ := hj.prelude
          obtain ⟨m0', e0', f0, _⟩ := e1 0 m0 e0
          unfold prelName; rw [e0, e0']; simp [f0]
        · intro q hq k x hk hx hb
          exact hpath q (List.mem_cons_of_mem _ hq) k x hk (b1 k x hx hb) hb

/-- An error of the discovery has a reason. -/
theorem deps_error (prel : Str) (n : Nat) : ∀ (st : St Out) (f : Str) st' e, J X fs st → prelName st = prel → Path X fs st f →
    deps X fs n st f = (st', .error e) → e = .fuel ∨ Fault X fs prel f e := by
  induction n with
  | zero => intro st f st' e _ _ _ h; rw [deps] at h; cases h; exact .inl rfl
  | succ n ih =>
    intro st0 f st' e hj0 hpr0 hpath0 h
    rw [deps] at h
    cases hg : getModule st0 f with
    | mk st i =>
      rw [hg] at h
      obtain ⟨hj, he, ⟨m, hm, hf⟩, hold⟩ := getModule_spec st0 hj0 f st i hg
      have hpr : prelName st = prel := by
        rw [← hpr0]
        obtain ⟨m0, e0, _⟩ := hj0.prelude
        obtain ⟨m0', e0', f0, _⟩ := he 0 m0 e0
        unfold prelName; rw [e0, e0']; simp [f0]
      dsimp only at h
      rw [hm] at h
      dsimp only at h
      cases hin : m.inp with
      | some x =>
        rw [hin] at h
        dsimp only at h
        split at h
        · cases h
        · rename_i ho
          cases h
          have ho : m.order = 0 := by omega
          by_cases hi0 : i = 0
          · subst hi0
            right
            have : prel = f := by rw [← hpr, ← hf]; unfold prelName; rw [hm]; rfl
            rw [this]
            exact .prelude (.refl f)
          · right
            obtain ⟨h', h1, h2⟩ := hpath0 i m hi0 (hold i m hm (by rw [hin]; rfl)) ⟨by rw [hin]; rfl, ho⟩
            rw [hf] at h1
            exact .circle f h' (.refl f) h1 h2
      | none =>
        rw [hin] at h
        dsimp only at h
        have hi0 : i ≠ 0 := by
          intro e; subst e
          obtain ⟨m0, e0, _, h0, _⟩ := hj.prelude
          rw [hm] at e0; cases e0; rw [hin] at h0; cases h0
        have ho0 : m.order = 0 := by
          rcases Nat.eq_zero_or_pos m.order with h | h
          · exact h
          · have := (hj.good i m hi0 hm (by omega)).inp
            rw [hin] at this; cases this
        have hout : m.out = none := hj.blank i m hi0 hm ho0
        rw [if_neg (by simp [hout])] at h
        split at h
        · rename_i hne
          cases h; exact .inr (.missing f (.refl f) hne)
        · rename_i hne
          cases hp : X.parse f (fs f) with
          | error e' =>
            rw [hp] at h
            cases h; exact .inr (.parse f e' (.refl f) hne hp)
          | ok pats =>
            rw [hp] at h
            dsimp only at h
            rw [if_neg (by simp [ho0])] at h
            generalize hm1 : ({ m with inp := some (fs f, pats.map fun p => (p, 0)) } : Mod Out) = m1 at h
            have hm1f : m1.fname = m.fname := by rw [← hm1]
            have hm1o : m1.order = 0 := by rw [← hm1]; exact ho0
            have hm1out : m1.out = none := by rw [← hm1]; exact hout
            have hj1 : J X fs (st.set i m1) := set_J hj hi0 hm ho0 hout hm1f hm1out (fun h => absurd hm1o h)
            have hset1 := set_get (m' := m1) hm
            cases hc : imports X fs (deps X fs n) f pats (st.set i m1) 1 [] with
            | mk st2 r2 =>
              rw [hc] at h
              cases r2 with
              | ok v => obtain ⟨d, done⟩ := v; dsimp only at h; cases h
              | error e' =>
                cases h
                refine imports_error (deps X fs n) (deps_spec n) prel ih f pats _ _ _ _ _ hj1 ?_ ?_ ?_ hc
                · rw [← hpr]
                  unfold prelName
                  rw [List.getElem?_set, if_neg hi0]
                · exact fun p hpp => ⟨hne, pats, hp, p, hpp, rfl⟩
                · intro p hpp k x hk hx hb
                  have himp : Imports X fs f (X.resolve fs f p) := ⟨hne, pats, hp, p, hpp, rfl⟩
                  rcases hset1.2 k x hx with ⟨_, rfl⟩ | ⟨_, hx⟩
                  · rw [hm1f, hf]
                    exact ⟨_, himp, .refl _⟩
                  · obtain ⟨h', h1, h2⟩ := hpath0 k x hk (hold k x hx hb.1) hb
                    exact ⟨h', h1, h2.snoc himp⟩

/-! ## Sorting into levels -/

theorem place_get (acc : List (List Nat)) (d i e : Nat) :
    ((place acc d i)[e]?).getD [] = (acc[e]?).getD [] ++ (if e = d then [i] else []) := by
  unfold place
  rw [List.getElem?_modify]
  by_cases he : e = d
  · subst he
    rw [if_pos rfl]
    by_cases hl : acc.length ≤ e
    · rw [if_pos hl, List.getElem?_append_right hl, List.getElem?_eq_none hl, List.getElem?_replicate, if_pos (by omega)]
      simp
    · rw [if_neg hl, List.getElem?_eq_getElem (by omega)]
      simp
  · rw [if_neg he]
    have hfun : ∀ x : Option (List Nat), ((fun a => if d = e then a ++ [i] else a) <$> x) = x := by
      intro x
      cases x with
      | none => rfl
      | some l => show some (if d = e then l ++ [i] else l) = some l; rw [if_neg (fun h => he h.symm)]
    rw [hfun, List.append_nil]
    by_cases hl : acc.length ≤ d
    · rw [if_pos hl]
      rcases Nat.lt_or_ge e acc.length with h | h
      · rw [List.getElem?_append_left h]
      · rw [List.getElem?_append_right h, List.getElem?_eq_none h, List.getElem?_replicate]
        split <;> simp
    · rw [if_neg hl]

/-- Level `d` is the modules of order `d`. -/
theorem depOrder_mem (st : St Out) : ∀ (i : Nat) (acc : List (List Nat)) (d j : Nat),
    j ∈ ((depOrder st i acc)[d]?).getD [] ↔ j ∈ (acc[d]?).getD [] ∨ ∃ (k : Nat) (m : Mod Out), st[k]? = some m ∧ m.order = d ∧ j = i + k := by
  induction st with
  | nil => intro i acc d j; rw [depOrder]; simp
  | cons m st ih =>
    intro i acc d j
    rw [depOrder, ih, place_get]
    constructor
    · rintro (h | ⟨k, x, h1, h2, h3⟩)
      · rcases List.mem_append.1 h with h | h
        · exact .inl h
        · split at h
          · rename_i e
            have := List.mem_singleton.1 h
            exact .inr ⟨0, m, rfl, e.symm, by omega⟩
          · cases h
      · exact .inr ⟨k + 1, x, h1, h2, by omega⟩
    · rintro (h | ⟨k, x, h1, h2, h3⟩)
      · exact .inl (List.mem_append_left _ h)
      · cases k with
        | zero =>
          have h1 : m = x := by simpa using h1
          subst h1
          left
          rw [if_pos h2.symm]
          exact List.mem_append_right _ (by simp [h3])
        | succ k => exact .inr ⟨k, x, h1, h2, by omega⟩

/-! ## One level -/

/-- Outputs were filled in; nothing else changed. -/
def Fill (st st' : St Out) : Prop :=
  st'.length = st.length ∧ ∀ (i : Nat) (m : Mod Out), st[i]? = some m →
    ∃ o, st'[i]? = some { m with out := o } ∧ (m.out.isSome = true → o = m.out)

theorem Fill.refl (st : St Out) : Fill st st := ⟨rfl, fun _ m h => ⟨m.out, h, fun _ => rfl⟩⟩

theorem Fill.trans {a b c : St Out} (h1 : Fill a b) (h2 : Fill b c) : Fill a c := by
  refine ⟨h2.1.trans h1.1, fun i m h => ?_⟩
  obtain ⟨o, e, k⟩ := h1.2 i m h
  obtain ⟨o', e', k'⟩ := h2.2 i _ e
  refine ⟨o', e', fun hm => ?_⟩
  have := k hm
  subst this
  exact k' hm

theorem Fill.back {st st' : St Out} (h : Fill st st') {i : Nat} {m' : Mod Out} (hm : st'[i]? = some m') :
    ∃ m, st[i]? = some m ∧ m' = { m with out := m'.out } ∧ (m.out.isSome = true → m'.out = m.out) := by
  have hlt := lt_of_get hm
  rw [h.1] at hlt
  obtain ⟨o, e, k⟩ := h.2 i st[i] (List.getElem?_eq_getElem hlt)
  rw [hm] at e
  cases e
  exact ⟨st[i], List.getElem?_eq_getElem hlt, rfl, k⟩

theorem Fresh.fill {st st' : St Out} (h : Fill st st') {m : Mod Out} {o : Out} (hf : Fresh X fs st m o) (x : Option Out) :
    Fresh X fs st' { m with out := x } o := by
  obtain ⟨imps, outs, h1, h2, h3⟩ := hf
  refine ⟨imps, outs, h1, ?_, h3⟩
  rw [← h2]
  apply List.map_congr_left
  intro p hp
  have : (st[p.2]?).bind (·.out) ∈ outs.map some := by rw [← h2]; exact List.mem_map.2 ⟨p, hp, rfl⟩
  obtain ⟨o', _, ho'⟩ := List.mem_map.1 this
  cases hm : st[p.2]? with
  | none => rw [hm] at ho'; cases ho'
  | some m' =>
    rw [hm] at ho'
    have ho' : m'.out = some o' := ho'.symm
    obtain ⟨o'', e, k⟩ := h.2 p.2 m' hm
    rw [e, k (by rw [ho']; rfl)]

theorem fill_set {st : St Out} {i : Nat} {m : Mod Out} (hm : st[i]? = some m) (ho : m.out = none) (o : Out) :
    Fill st (st.set i { m with out := some o }) := by
  refine ⟨by simp, fun k x hx => ?_⟩
  by_cases e : i = k
  · subst e
    rw [hm] at hx; cases hx
    exact ⟨some o, (set_get hm).1, fun h => by rw [ho] at h; cases h⟩
  · exact ⟨x.out, by rw [List.getElem?_set, if_neg e]; exact hx, fun _ => rfl⟩

theorem fill_J {st st' : St Out} (hj : J X fs st) (h : Fill st st')
    (hnew : ∀ (i : Nat) (m : Mod Out) (o : Out), i ≠ 0 → st[i]? = some m → m.out = none → st'[i]? = some { m with out := some o } →
      m.order ≠ 0 ∧ Fresh X fs st' { m with out := some o } o) : J X fs st' := by
  refine ⟨?_, ?_, ?_, ?_, ?_⟩
  · have : st'.map (·.fname) = st.map (·.fname) := by
      apply List.ext_getElem?
      intro k
      rw [List.getElem?_map, List.getElem?_map]
      cases hk : st[k]? with
      | none =>
        rw [List.getElem?_eq_none_iff] at hk
        rw [List.getElem?_eq_none (by rw [h.1]; exact hk)]
      | some m => obtain ⟨o, e, _⟩ := h.2 k m hk; rw [e]; rfl
    rw [this]; exact hj.nodup
  · obtain ⟨m, e, h1, h2, h3⟩ := hj.prelude
    obtain ⟨o, e', k⟩ := h.2 0 m e
    exact ⟨_, e', h1, h2, by rw [k h3]; exact h3⟩
  · intro i m' hi hm' ho
    obtain ⟨m, hm, e, _⟩ := h.back hm'
    have ho : m.order ≠ 0 := by rw [e] at ho; exact ho
    obtain ⟨imps, h1, h2, h3, h4⟩ := hj.good i m hi hm ho
    refine ⟨imps, by rw [e]; exact h1, by rw [e]; exact h2, by rw [e]; exact h3, fun p j hp => ?_⟩
    obtain ⟨x, ex, a, b, c⟩ := h4 p j hp
    obtain ⟨o, ex', _⟩ := h.2 j x ex
    exact ⟨_, ex', by rw [e]; exact a, b, by rw [e]; exact c⟩
  · intro i m' hi hm' ho
    obtain ⟨m, hm, e, _⟩ := h.back hm'
    have ho : m.order = 0 := by rw [e] at ho; exact ho
    cases hout : m'.out with
    | none => rfl
    | some o =>
      rw [e, hout] at hm'
      exact absurd ho (hnew i m o hi hm (hj.blank i m hi hm ho) hm').1
  · intro i m' o hi hm' ho
    obtain ⟨m, hm, e, k⟩ := h.back hm'
    cases hout : m.out with
    | none =>
      rw [e, ho] at hm'
      have := (hnew i m o hi hm hout hm').2
      rw [e, ho]; exact this
    | some o' =>
      have := k (by rw [hout]; rfl)
      rw [ho, hout] at this; cases this
      rw [e]
      exact (hj.fresh i m o hi hm hout).fill h _

/-- Every module of order below `d` has its output. -/
def Done (st : St Out) (d : Nat) : Prop :=
  ∀ (i : Nat) (m : Mod Out), i ≠ 0 → st[i]? = some m → m.order < d → m.out.isSome = true

/-- No module is half-read. -/
def Settled (st : St Out) : Prop := ∀ (i : Nat) (m : Mod Out), i ≠ 0 → st[i]? = some m → ¬ Busy m

theorem Settled.fill {st st' : St Out} (h : Settled st) (hf : Fill st st') : Settled st' := by
  intro i m' hi hm' hb
  obtain ⟨m, hm, e, _⟩ := hf.back hm'
  refine h i m hi hm ?_
  rw [e] at hb; exact hb

theorem Done.fill {st st' : St Out} {d : Nat} (h : Done st d) (hf : Fill st st') : Done st' d := by
  intro i m' hi hm' hd
  obtain ⟨m, hm, e, k⟩ := hf.back hm'
  have := h i m hi hm (by rw [e] at hd; exact hd)
  rw [k this]; exact this

/-- Why a level failed. -/
def Fails (X : Front Out) (fs : Files) (st : St Out) (e : Err) : Prop :=
  ∃ (st' : St Out) (i : Nat) (m : Mod Out), Fill st st' ∧ J X fs st' ∧ i ≠ 0 ∧ st'[i]? = some m ∧ m.out = none ∧ Done st' m.order ∧
    solveOne X st' m = .error e

theorem solveOne_ok {st : St Out} (hj : J X fs st) (hs : Settled st) {i : Nat} {m : Mod Out} (hi : i ≠ 0) (hm : st[i]? = some m)
    (hd : Done st m.order) {o : Out} (h : solveOne X st m = .ok o) : m.order ≠ 0 ∧ Fresh X fs st m o := by
  unfold solveOne at h
  cases hin : m.inp with
  | none => rw [hin] at h; cases h
  | some v =>
    have hne : m.order ≠ 0 := fun ho => hs i m hi hm ⟨by rw [hin]; rfl, ho⟩
    refine ⟨hne, ?_⟩
    obtain ⟨src, imps⟩ := v
    rw [hin] at h
    dsimp only at h
    obtain ⟨imps', h1, h2, h3, h4⟩ := hj.good i m hi hm hne
    rw [hin] at h3
    cases h3
    split at h
    · cases h
      rename_i o hsol
      refine ⟨imps, _, hin, ?_, hsol⟩
      rw [List.map_map]
      apply List.map_congr_left
      intro p hp
      obtain ⟨x, ex, a, b, c⟩ := h4 p.1 p.2 hp
      have := hd p.2 x (hj.order_inp ex b).1 ex c
      obtain ⟨ox, hox⟩ := Option.isSome_iff_exists.1 this
      simp [ex, hox]
    · cases h

theorem set_out_J {st : St Out} (hj : J X fs st) {i : Nat} {m : Mod Out} (hm : st[i]? = some m) (hout : m.out = none)
    {o : Out} (ho : m.order ≠ 0) (hf : Fresh X fs st m o) : J X fs (st.set i { m with out := some o }) := by
  have hfill := fill_set hm hout o
  refine fill_J hj hfill ?_
  intro k x o' hk hx hxo hx'
  rcases (set_get (m' := { m with out := some o }) hm).2 k _ hx' with ⟨rfl, e⟩ | ⟨_, h⟩
  · rw [hm] at hx; cases hx
    cases e
    exact ⟨ho, hf.fill hfill _⟩
  · rw [hx] at h
    have h := Option.some.inj h
    rw [h] at hxo; cases hxo

theorem levelSeq_spec (d : Nat) (l : List Nat) : ∀ (st : St Out), J X fs st → Settled st → Done st d →
    (∀ i ∈ l, ∀ m : Mod Out, st[i]? = some m → m.order = d) → ∀ st' r, levelSeq X l st = (st', r) →
    J X fs st' ∧ Fill st st' ∧ (r = none → ∀ i ∈ l, ∀ m : Mod Out, st'[i]? = some m → m.out.isSome = true) ∧
    ∀ e, r = some e → Fails X fs st e := by
  induction l with
  | nil =>
    intro st hj _ _ _ st' r h
    rw [levelSeq] at h; cases h
    exact ⟨hj, Fill.refl _, fun _ i hi => (by cases hi), fun _ h => (by cases h)⟩
  | cons i l ih =>
    intro st hj hs hd hl st' r h
    rw [levelSeq] at h
    have hl' : ∀ k ∈ l, ∀ m : Mod Out, st[k]? = some m → m.order = d := fun k hk => hl k (List.mem_cons_of_mem _ hk)
    cases hm : st[i]? with
    | none =>
      rw [hm] at h
      obtain ⟨a, b, c, e⟩ := ih st hj hs hd hl' st' r h
      refine ⟨a, b, fun hr k hk m hkm => ?_, e⟩
      rcases List.mem_cons.1 hk with rfl | hk
      · obtain ⟨x, hx, _⟩ := b.back hkm
        rw [hm] at hx; cases hx
      · exact c hr k hk m hkm
    | some m =>
      rw [hm] at h
      dsimp only at h
      by_cases ho : m.out.isSome = true
      · rw [if_pos ho] at h
        obtain ⟨a, b, c, e⟩ := ih st hj hs hd hl' st' r h
        refine ⟨a, b, fun hr k hk x hkm => ?_, e⟩
        rcases List.mem_cons.1 hk with rfl | hk
        · obtain ⟨y, hy, _, ky⟩ := b.back hkm
          rw [hm] at hy; cases hy
          rw [ky ho]; exact ho
        · exact c hr k hk x hkm
      · rw [if_neg ho] at h
        have hout : m.out = none := by cases h : m.out with | none => rfl | some _ => rw [h] at ho; exact absurd rfl ho
        have hi0 : i ≠ 0 := by
          intro e; subst e
          obtain ⟨m0, e0, _, _, h0⟩ := hj.prelude
          rw [hm] at e0; cases e0; exact ho h0
        have hmo : m.order = d := hl i List.mem_cons_self m hm
        cases hsol : solveOne X st m with
        | error e =>
          rw [hsol] at h
          cases h
          refine ⟨hj, Fill.refl _, fun h => (by cases h), fun e' he => ?_⟩
          cases he
          exact ⟨st, i, m, Fill.refl _, hj, hi0, hm, hout, by rw [hmo]; exact hd, hsol⟩
        | ok o =>
          rw [hsol] at h
          dsimp only at h
          obtain ⟨hne, hfr⟩ := solveOne_ok hj hs hi0 hm (by rw [hmo]; exact hd) hsol
          have hj1 := set_out_J hj hm hout hne hfr
          have hfill := fill_set hm hout o
          obtain ⟨a, b, c, e⟩ := ih _ hj1 (hs.fill hfill) (hd.fill hfill) (by
            intro k hk x hx
            obtain ⟨y, hy, ey, _⟩ := hfill.back hx
            rw [ey]; exact hl' k hk y hy) st' r h
          refine ⟨a, hfill.trans b, fun hr k hk x hkm => ?_, fun e' he => ?_⟩
          · rcases List.mem_cons.1 hk with rfl | hk
            · obtain ⟨y, hy, _, ky⟩ := b.back hkm
              rw [(set_get hm).1] at hy; cases hy
              rw [ky rfl]; rfl
            · exact c hr k hk x hkm
          · obtain ⟨s, k, x, f1, f2⟩ := e e' he
            exact ⟨s, k, x, hfill.trans f1, f2⟩

theorem levelPar_spec (st0 : St Out) (hj0 : J X fs st0) (hs : Settled st0) (d : Nat) (hd : Done st0 d) (l : List Nat) :
    ∀ (st : St Out) (err : Option Err), J X fs st → Fill st0 st →
    (∀ i ∈ l, ∀ m : Mod Out, st0[i]? = some m → m.order = d) → ∀ st' r, levelPar X st0 l st err = (st', r) →
    J X fs st' ∧ Fill st st' ∧ (r = none → err = none ∧ ∀ i ∈ l, ∀ m : Mod Out, st'[i]? = some m → m.out.isSome = true) ∧
    ∀ e, r = some e → err = some e ∨ Fails X fs st0 e := by
  induction l with
  | nil =>
    intro st err hj _ _ st' r h
    rw [levelPar] at h; cases h
    exact ⟨hj, Fill.refl _, fun h => ⟨h, fun i hi => by cases hi⟩, fun _ h => .inl h⟩
  | cons i l ih =>
    intro st err hj hf hl st' r h
    rw [levelPar] at h
    have hl' : ∀ k ∈ l, ∀ m : Mod Out, st0[k]? = some m → m.order = d := fun k hk => hl k (List.mem_cons_of_mem _ hk)
    cases hm : st0[i]? with
    | none =>
      rw [hm] at h
      obtain ⟨a, b, c, e⟩ := ih st err hj hf hl' st' r h
      refine ⟨a, b, fun hr => ⟨(c hr).1, fun k hk m hkm => ?_⟩, e⟩
      rcases List.mem_cons.1 hk with rfl | hk
      · obtain ⟨x, hx, _⟩ := (hf.trans b).back hkm
        rw [hm] at hx; cases hx
      · exact (c hr).2 k hk m hkm
    | some m =>
      rw [hm] at h
      dsimp only at h
      by_cases ho : m.out.isSome = true
      · rw [if_pos ho] at h
        obtain ⟨a, b, c, e⟩ := ih st err hj hf hl' st' r h
        refine ⟨a, b, fun hr => ⟨(c hr).1, fun k hk x hkm => ?_⟩, e⟩
        rcases List.mem_cons.1 hk with rfl | hk
        · obtain ⟨y, hy, _, ky⟩ := (hf.trans b).back hkm
          rw [hm] at hy; cases hy
          rw [ky ho]; exact ho
        · exact (c hr).2 k hk x hkm
      · rw [if_neg ho] at h
        have hout : m.out = none := by cases h : m.out with | none => rfl | some _ => rw [h] at ho; exact absurd rfl ho
        have hi0 : i ≠ 0 := by
          intro e; subst e
          obtain ⟨m0, e0, _, _, h0⟩ := hj0.prelude
          rw [hm] at e0; cases e0; exact ho h0
        have hmo : m.order = d := hl i List.mem_cons_self m hm
        cases hsol : solveOne X st0 m with
        | error e =>
          rw [hsol] at h
          dsimp only at h
          obtain ⟨a, b, c, e'⟩ := ih st _ hj hf hl' st' r h
          have hfail : Fails X fs st0 e := ⟨st0, i, m, Fill.refl _, hj0, hi0, hm, hout, by rw [hmo]; exact hd, hsol⟩
          refine ⟨a, b, fun hr => ?_, fun x hx => ?_⟩
          · have := (c hr).1
            split at this
            · rename_i h; rw [this] at h; cases h
            · cases this
          · rcases e' x hx with h | h
            · split at h
              · exact .inl h
              · cases h; exact .inr hfail
            · exact .inr h
        | ok o =>
          rw [hsol] at h
          dsimp only at h
          obtain ⟨hne, hfr⟩ := solveOne_ok hj0 hs hi0 hm (by rw [hmo]; exact hd) hsol
          have hstep : J X fs (st.set i { m with out := some o }) ∧ Fill st (st.set i { m with out := some o }) := by
            obtain ⟨x, ex, _⟩ := hf.2 i m hm
            cases x with
            | none =>
              have em : ({ m with out := none } : Mod Out) = m := by cases m; cases hout; rfl
              rw [em] at ex
              refine ⟨set_out_J hj ex hout hne ?_, fill_set ex hout o⟩
              have := hfr.fill hf m.out
              exact this
            | some o' =>
              -- the same module was met before in this level: it has the same output already
              have h1 := hj.fresh i _ o' hi0 ex rfl
              obtain ⟨imps, outs, a1, a2, a3⟩ := h1
              obtain ⟨imps', outs', b1, b2, b3⟩ := hfr.fill hf (some o')
              rw [b1] at a1; cases a1
              rw [a2] at b2
              have hinj : outs = outs' := (List.map_inj_right (fun _ _ h => Option.some.inj h)).1 b2
              subst hinj
              rw [a3] at b3
              cases b3
              have hid : st.set i { m with out := some o } = st := by
                apply List.ext_getElem?
                intro k
                rw [List.getElem?_set]
                by_cases e : i = k
                · subst e
                  rw [if_pos rfl, if_pos (lt_of_get ex), ex]
                · rw [if_neg e]
              rw [hid]
              exact ⟨hj, Fill.refl _⟩
          obtain ⟨hj1, hfill⟩ := hstep
          obtain ⟨a, b, c, e⟩ := ih _ err hj1 (hf.trans hfill) hl' st' r h
          refine ⟨a, hfill.trans b, fun hr => ⟨(c hr).1, fun k hk x hkm => ?_⟩, e⟩
          rcases List.mem_cons.1 hk with rfl | hk
          · obtain ⟨x0, ex0, _⟩ := hf.2 k m hm
            obtain ⟨y, hy, _, ky⟩ := b.back hkm
            rw [(set_get ex0).1] at hy; cases hy
            rw [ky rfl]; rfl
          · exact (c hr).2 k hk x hkm

/-! ## All levels -/

theorem levels_spec (par : Bool) (ls : List (List Nat)) : ∀ (d : Nat) (st : St Out), J X fs st → Settled st → Done st d →
    (∀ k i, i ∈ (ls[k]?).getD [] ↔ ∃ m : Mod Out, st[i]? = some m ∧ m.order = d + k) → ∀ st' r, levels X par ls st = (st', r) →
    J X fs st' ∧ Fill st st' ∧ (r = .ok () → ∀ (i : Nat) (m : Mod Out), i ≠ 0 → st'[i]? = some m → m.out.isSome = true) ∧
    ∀ e, r = .error e → Fails X fs st e := by
  induction ls with
  | nil =>
    intro d st hj hs hd hls st' r h
    rw [levels] at h; cases h
    refine ⟨hj, Fill.refl _, fun _ i m hi hm => ?_, fun _ h => by cases h⟩
    refine hd i m hi hm ?_
    rcases Nat.lt_or_ge m.order d with h | h
    · exact h
    · have := (hls (m.order - d) i).2 ⟨m, hm, by omega⟩
      simp at this
  | cons l ls ih =>
    intro d st hj hs hd hls st' r h
    rw [levels] at h
    have hl : ∀ i ∈ l, ∀ m : Mod Out, st[i]? = some m → m.order = d := by
      intro i hi m hm
      obtain ⟨x, hx, ho⟩ := (hls 0 i).1 hi
      rw [hm] at hx; cases hx; exact ho
    cases hc : (if par then levelPar X st l st none else levelSeq X l st) with
    | mk st1 r1 =>
      rw [hc] at h
      have hone : J X fs st1 ∧ Fill st st1 ∧ (r1 = none → ∀ i ∈ l, ∀ m : Mod Out, st1[i]? = some m → m.out.isSome = true) ∧
          ∀ e, r1 = some e → Fails X fs st e := by
        cases par with
        | true =>
          rw [if_pos rfl] at hc
          obtain ⟨a, b, c, e⟩ := levelPar_spec st hj hs d hd l st none hj (Fill.refl _) hl st1 r1 hc
          refine ⟨a, b, fun h => (c h).2, fun x hx => ?_⟩
          rcases e x hx with h | h
          · cases h
          · exact h
        | false =>
          rw [if_neg (by simp)] at hc
          exact levelSeq_spec d l st hj hs hd hl st1 r1 hc
      obtain ⟨a, b, c, e⟩ := hone
      cases r1 with
      | some x =>
        cases h
        refine ⟨a, b, fun h => (by cases h), fun y hy => ?_⟩
        cases hy
        exact e x rfl
      | none =>
        dsimp only at h
        have hd1 : Done st1 (d + 1) := by
          intro i m hi hm ho
          rcases Nat.lt_or_ge m.order d with h | h
          · exact (hd.fill b) i m hi hm h
          · obtain ⟨x, hx, ex, _⟩ := b.back hm
            refine c rfl i ((hls 0 i).2 ⟨x, hx, ?_⟩) m hm
            have : x.order = m.order := by rw [ex]
            omega
        obtain ⟨a', b', c', e'⟩ := ih (d + 1) st1 a (hs.fill b) hd1 (by
          intro k i
          have := hls (k + 1) i
          rw [show d + 1 + k = d + (k + 1) by omega]
          rw [List.getElem?_cons_succ] at this
          rw [this]
          constructor
          · rintro ⟨m, hm, ho⟩
            obtain ⟨o, eo, _⟩ := b.2 i m hm
            exact ⟨_, eo, ho⟩
          · rintro ⟨m, hm, ho⟩
            obtain ⟨x, hx, ex, _⟩ := b.back hm
            exact ⟨x, hx, by rw [← ho, ex]⟩) st' r h
        refine ⟨a', b.trans b', c', fun x hx => ?_⟩
        obtain ⟨s, k, m, f1, f2⟩ := e' x hx
        exact ⟨s, k, m, b.trans f1, f2⟩

end Verif.Compile
