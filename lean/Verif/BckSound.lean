import Verif.BckProps
/-! # C97: the checker's verdict and every run of the function -/
namespace Verif.Bck

theorem after_sub (n : Node) : ∀ (g : List Nat), ∀ v ∈ g, v ∈ after n g := by
  induction n with
  | seq a b iha ihb => intro g v h; exact ihb _ v (iha _ v h)
  | bind u i ih => intro g v h; exact List.mem_cons_of_mem _ (ih _ v h)
  | _ => intro g v h; exact h

theorem after_known {c : Cfg} (n : Node) : ∀ {env : Env} {r : Start} {js g : List Nat} {σ τ : St}, Fine r js g n →
    (∀ h ∈ js, env h = r) → bck c env r r n σ = .ok τ → (∀ v ∈ g, v ∈ σ.known) → ∀ v ∈ after n g, v ∈ τ.known := by
  induction n with
  | seq a b iha ihb =>
    intro env r js g σ τ hf he h hk
    simp only [bck] at h
    rw [before_fine b hf.2 he] at h
    cases ha : bck c env r r a σ with
    | error e => rw [ha] at h; cases h
    | ok ρ =>
      rw [ha] at h
      exact ihb hf.2 he h (iha hf.1 he ha hk)
  | bind u i ih =>
    intro env r js g σ τ hf he h hk v hv
    simp only [bck] at h
    cases ha : bck c env r r i σ with
    | error e => rw [ha] at h; cases h
    | ok ρ =>
      rw [ha] at h
      dsimp only at h
      split at h
      · cases h
      · injection h with h
        subst h
        rcases List.mem_cons.mp hv with hv | hv
        · exact hv ▸ List.mem_cons_self
        · exact List.mem_cons_of_mem _ (ih hf he ha hk v hv)
  | _ => intro env r js g σ τ hf he h hk v hv; exact (grows _ hf he h).known v (hk v hv)

/-- every reference of `g` that is bad is known to be (by `m`) or is one of the `X` -/
def Knows (c : Cfg) (X : Nat → Prop) (g : List Nat) (m : Events) (d : Bad) : Prop :=
  ∀ v ∈ g, c.copies v = false → d v → m.hit v = true ∨ X v

theorem Knows.sub {c : Cfg} {X : Nat → Prop} {g g' : List Nat} {m m' : Events} {d : Bad} (h : Knows c X g' m' d)
    (hg : ∀ v ∈ g, v ∈ g') (hm : ∀ v ∈ g, c.copies v = false → m'.hit v = true → m.hit v = true) : Knows c X g m d :=
  fun v hv hc hd => (h v (hg v hv) hc hd).imp (hm v hv hc) id

/-- what is to be shown of each run -/
def Good (c : Cfg) (X : Nat → Prop) (js g g' : List Nat) (τ : St) : Out → Bad → Prop
  | .normal, d => Knows c X g' τ.inval d
  | .jump h, d => h ∈ js ∧ Knows c X g (τ.postevt h) d
  | .wrong, _ => False

theorem sound_all {c : Cfg} (n : Node) :
    ∀ {env : Env} {r : Start} {js g : List Nat} {σ τ : St} {X : Nat → Prop} {d d1 : Bad} {o : Out},
    Fine r js g n → (∀ h ∈ js, env h = r) → bck c env r r n σ = .ok τ →
    (labels n).Nodup → (∀ h ∈ labels n, h ∉ js) → (∀ h ∈ labels n, σ.postevt h = []) →
    (∀ v ∈ g, v ∈ σ.known) → (∀ v, X v → v ∉ reads n) → Knows c X g σ.inval d →
    Run c n d o d1 → Good c X js g (after n g) τ o d1 := by
  induction n with
  | skip =>
    intro env r js g σ τ X d d1 o hf he h _ _ _ hk hX hK hr
    injection h with h; subst h
    obtain ⟨rfl, rfl⟩ := hr
    exact hK
  | read u =>
    intro env r js g σ τ X d d1 o hf he h _ _ _ hk hX hK hr
    obtain ⟨h1, h2, h3, h4, h5, h6, h7⟩ := track_known h
    obtain ⟨rfl, ⟨rfl, hc, hd⟩ | ⟨rfl, hn⟩⟩ := hr
    · exfalso
      rcases hK u hf hc hd with hh | hx
      · rw [h6 hc] at hh; cases hh
      · exact hX u hx (by simp [reads])
    · exact hK.sub (fun _ h => h) (fun v _ hc hh => by rw [h5 v hc]; exact hh)
  | write w =>
    intro env r js g σ τ X d d1 o hf he h _ _ _ hk hX hK hr
    obtain ⟨h1, h2, h3, h4, h5⟩ := write_known h
    obtain ⟨rfl, rfl⟩ := hr
    intro v hv hc hd
    rcases hd with hd | hd
    · exact (hK v hv hc hd).imp (fun h => (h4 v).mpr (.inl h)) id
    · exact .inl ((h4 v).mpr (.inr ⟨hd, hk v hv⟩))
  | seq a b iha ihb =>
    intro env r js g σ τ X d d1 o hf he h nd hj hp hk hX hK hr
    simp only [bck] at h
    rw [before_fine b hf.2 he] at h
    simp only [labels, List.nodup_append, List.mem_append] at nd hj hp
    simp only [reads, List.mem_append] at hX
    cases ha : bck c env r r a σ with
    | error e => rw [ha] at h; cases h
    | ok ρ =>
      rw [ha] at h
      dsimp only at h
      have GA := grows a hf.1 he ha
      have GB := grows b hf.2 he h
      have A := fun {o d1} (hr : Run c a d o d1) => iha hf.1 he ha nd.1 (fun l hl => hj l (.inl hl)) (fun l hl => hp l (.inl hl)) hk
        (fun v hx hm => hX v hx (.inl hm)) hK hr
      rcases hr with ⟨hr, ho⟩ | ⟨d0, hr, hr2⟩
      · have := A hr
        cases o with
        | normal => exact (ho rfl).elim
        | wrong => exact this
        | jump l => exact ⟨this.1, this.2.sub (fun _ h => h) (fun v _ _ => GB.post l v)⟩
      · have hA : Knows c X (after a g) ρ.inval d0 := A hr
        have B := ihb hf.2 he h nd.2.1 (fun l hl => hj l (.inr hl))
          (fun l hl => by
            rw [GA.same l (hj l (.inr hl)) (fun hm => nd.2.2 l hm l hl rfl)]
            exact hp l (.inr hl)) (after_known a hf.1 he ha hk)
          (fun v hx hm => hX v hx (.inr hm)) hA hr2
        cases o with
        | normal => exact B
        | wrong => exact B
        | jump l => exact ⟨B.1, B.2.sub (after_sub a g) (fun v _ _ h => h)⟩
  | bind u i ih =>
    intro env r js g σ τ X d d1 o hf he h nd hj hp hk hX hK hr
    simp only [bck] at h
    cases ha : bck c env r r i σ with
    | error e => rw [ha] at h; cases h
    | ok ρ =>
      rw [ha] at h
      dsimp only at h
      split at h
      · cases h
      · injection h with h
        subst h
        have A := fun {o d1} (hr : Run c i d o d1) => ih hf he ha nd hj hp hk hX hK hr
        rcases hr with ⟨hr, ho⟩ | ⟨d0, hr, rfl, rfl⟩
        · have := A hr
          cases o with
          | normal => exact (ho rfl).elim
          | wrong => exact this
          | jump l => exact this
        · have hA : Knows c X (after i g) ρ.inval d0 := A hr
          intro v hv hc hd
          rcases List.mem_cons.mp hv with e | hv
          · exact (hd.2 e).elim
          · exact hA v hv hc hd.1
  | block l b ih =>
    intro env r js g σ τ X d d1 o hf he h nd hj hp hk hX hK hr
    simp only [bck] at h
    simp only [labels, List.nodup_cons, List.mem_cons] at nd hj hp
    cases hb : bck c (env.set l r) r r b σ with
    | error e => rw [hb] at h; cases h
    | ok ρ =>
      rw [hb] at h
      injection h with h
      subst h
      have A := fun {o d1} (hr : Run c b d o d1) => ih (js := l :: js) hf (set_ok he l) hb nd.2
        (fun x hx hm => by
          rcases List.mem_cons.mp hm with e | hm
          · exact nd.1 (e ▸ hx)
          · exact hj x (.inr hx) hm)
        (fun x hx => hp x (.inr hx)) hk hX hK hr
      rcases hr with ⟨hr, ho⟩ | ⟨hr, rfl⟩
      · have := A hr
        cases o with
        | normal => exact Knows.sub this (after_sub b g) (fun v _ _ h => by dsimp only; rw [hit_merge, h]; rfl)
        | wrong => exact this
        | jump x =>
          refine ⟨(List.mem_cons.mp this.1).resolve_left (fun e => ho (e ▸ rfl)), this.2⟩
      · have := (A hr).2
        exact this.sub (fun _ h => h) (fun v _ _ h => by dsimp only; rw [hit_merge, h, Bool.or_true])
  | cond x a b ihx iha ihb =>
    intro env r js g σ τ X d d1 o hf he h nd hj hp hk hX hK hr
    obtain ⟨f1, f2, f3⟩ := hf
    have hb0 : before env (.cond x a b) r = r := before_fine (.cond x a b) ⟨f1, f2, f3⟩ he
    simp only [bck] at h
    rw [hb0, before_fine a f2 he, before_fine b f3 he, later_self] at h
    simp only [labels, List.nodup_append, List.mem_append] at nd hj hp
    simp only [reads, List.mem_append] at hX
    cases hx : bck c env r r x σ with
    | error e => rw [hx] at h; cases h
    | ok σ0 =>
      rw [hx] at h
      dsimp only at h
      cases ha : bck c env r r a σ0 with
      | error e => rw [ha] at h; cases h
      | ok σ1 =>
        rw [ha] at h
        dsimp only at h
        cases hb : bck c env r r b { σ1 with inval := restore σ1.inval σ0.inval r } with
        | error e => rw [hb] at h; cases h
        | ok σ2 =>
          rw [hb] at h
          injection h with h
          subst h
          have GX := grows x f1 he hx
          have GA := grows a f2 he ha
          have GB := grows b f3 he hb
          have pa : ∀ l ∈ labels a, σ0.postevt l = [] := fun l hl => by
            rw [GX.same l (hj l (.inr (.inl hl))) (fun hm => nd.2.2 l hm l (.inl hl) rfl)]
            exact hp l (.inr (.inl hl))
          have pb : ∀ l ∈ labels b, σ1.postevt l = [] := fun l hl => by
            rw [GA.same l (hj l (.inr (.inr hl))) (fun hm => nd.2.1.2.2 l hm l hl rfl),
              GX.same l (hj l (.inr (.inr hl))) (fun hm => nd.2.2 l hm l (.inr hl) rfl)]
            exact hp l (.inr (.inr hl))
          have kx := after_known x f1 he hx hk
          have A := fun {o d1} (hr : Run c x d o d1) => ihx f1 he hx nd.1 (fun l hl => hj l (.inl hl)) (fun l hl => hp l (.inl hl)) hk
            (fun v hx hm => hX v hx (.inl hm)) hK hr
          rcases hr with ⟨hr, ho⟩ | ⟨d0, hr, hr2⟩
          · have := A hr
            cases o with
            | normal => exact (ho rfl).elim
            | wrong => exact this
            | jump l =>
              exact ⟨this.1, this.2.sub (fun _ h => h) (fun v _ _ h => GB.post l v (GA.post l v h))⟩
          · have hA : Knows c X (after x g) σ0.inval d0 := A hr
            rcases hr2 with hr2 | hr2
            · have := iha f2 he ha nd.2.1.1 (fun l hl => hj l (.inr (.inl hl))) pa kx (fun v hx hm => hX v hx (.inr (.inl hm))) hA hr2
              cases o with
              | normal =>
                exact Knows.sub this (fun v hv => after_sub a _ v (after_sub x g v hv))
                  (fun v _ _ h => by dsimp only; rw [hit_merge, h, Bool.or_true])
              | wrong => exact this
              | jump l => exact ⟨this.1, this.2.sub (after_sub x g) (fun v _ _ h => GB.post l v h)⟩
            · have hR : Knows c X (after x g) (restore σ1.inval σ0.inval r) d0 := by
                refine hA.sub (fun _ h => h) (fun v hv hc hh => ?_)
                cases r with
                | none => exact hh
                | some s =>
                  rw [hit_restore]
                  by_cases hs : v < s
                  · rw [if_pos hs]
                    exact (flows a f2 he ha nd.2.1.1 (fun l hl => hj l (.inr (.inl hl)))
                      (fun l hl => by rw [pa l hl]; rfl) hs hc).keep hh
                  · rw [if_neg hs]; exact hh
              have := ihb f3 he hb nd.2.1.2.1 (fun l hl => hj l (.inr (.inr hl))) pb (fun v hv => GA.known v (kx v hv))
                (fun v hx hm => hX v hx (.inr (.inr hm))) hR hr2
              cases o with
              | normal =>
                exact Knows.sub this (fun v hv => after_sub b _ v (after_sub x g v hv))
                  (fun v _ _ h => by dsimp only; rw [hit_merge, h]; rfl)
              | wrong => exact this
              | jump l => exact ⟨this.1, this.2.sub (after_sub x g) (fun v _ _ h => h)⟩
  | opt n ih =>
    intro env r js g σ τ X d d1 o hf he h nd hj hp hk hX hK hr
    have hf : Fine r [] g n := hf
    simp only [bck] at h
    rcases hr with ⟨rfl, rfl⟩ | hr
    · refine hK.sub (fun _ h => h) (fun v _ hc hh => ?_)
      rcases (grows n hf (by simp) h).keep v hc hh with h | ⟨l, hl, _⟩
      · exact h
      · cases hl
    · have := ih (js := []) hf (by simp) h nd (by simp) hp hk hX hK hr
      cases o with
      | normal => exact Knows.sub this (after_sub n g) (fun _ _ _ h => h)
      | wrong => exact this
      | jump l => exact absurd this.1 (by simp)
  | loop l s i x a ihi ihx iha =>
    intro env r js g σ τ X d d1 o hf he h nd hj hp hk hX hK hr
    obtain ⟨f1, f2, f3, f4, f5, f6⟩ := hf
    simp only [bck] at h
    rw [before_fine i f1 he, before_fine (js := []) a f6 (by simp)] at h
    simp only [labels, List.nodup_cons, List.nodup_append, List.mem_append] at nd
    simp only [labels, List.mem_cons, List.mem_append] at hj hp
    simp only [reads, List.mem_append] at hX
    cases hi : bck c env r r i { σ with used := c.clear σ.used r } with
    | error e => rw [hi] at h; cases h
    | ok σ0 =>
      rw [hi] at h
      dsimp only at h
      cases hx : bck c (env.set l r) (some s) (some s) x σ0 with
      | error e => rw [hx] at h; cases h
      | ok σ1 =>
        rw [hx] at h
        dsimp only at h
        cases ha : bck c (env.set l r) (some s) (some s) a σ1 with
        | error e => rw [ha] at h; cases h
        | ok σ2 =>
          rw [ha] at h
          injection h with h
          subst h
          have GI := grows i f1 he hi
          have GX := grows (js := []) x f5 (by simp) hx
          have GA := grows (js := []) a f6 (by simp) ha
          have px : ∀ m ∈ labels x, σ0.postevt m = [] := fun m hm => by
            rw [GI.same m (hj m (.inr (.inr (.inl hm)))) (fun hm' => nd.2.2.2 m hm' m (.inl hm) rfl)]
            exact hp m (.inr (.inr (.inl hm)))
          have pa : ∀ m ∈ labels a, σ1.postevt m = [] := fun m hm => by
            rw [GX.same m (by simp) (fun hm' => nd.2.2.1.2.2 m hm' m hm rfl),
              GI.same m (hj m (.inr (.inr (.inr hm)))) (fun hm' => nd.2.2.2 m hm' m (.inr hm) rfl)]
            exact hp m (.inr (.inr (.inr hm)))
          have I := fun {o d1} (hr : Run c i d o d1) => ihi f1 he hi nd.2.1 (fun m hm => hj m (.inr (.inl hm)))
            (fun m hm => hp m (.inr (.inl hm))) hk (fun v hx hm => hX v hx (.inl hm)) hK hr
          rcases hr with ⟨hr, ho⟩ | ⟨d0, hr, hr2⟩
          · have := I hr
            cases o with
            | normal => exact (ho rfl).elim
            | wrong => exact this
            | jump m =>
              exact ⟨this.1, this.2.sub (fun _ h => h) (fun v _ _ h => GA.post m v (GX.post m v h))⟩
          · have hI : Knows c X (after i g) σ0.inval d0 := I hr
            rw [f2] at hI
            have ki : ∀ v ∈ g, v ∈ σ0.known := fun v hv => GI.known v (hk v hv)
            have keepX : ∀ v ∈ g, c.copies v = false → σ0.inval.hit v = true → σ1.inval.hit v = true := fun v hv hc hh => by
              rcases GX.keep v hc hh with h | ⟨m, hm, _⟩
              · exact h
              · cases hm
            have keepA : ∀ v ∈ g, c.copies v = false → σ1.inval.hit v = true → σ2.inval.hit v = true := fun v hv hc hh => by
              rcases GA.keep v hc hh with h | ⟨m, hm, _⟩
              · exact h
              · cases hm
            -- what the second time round must not read
            let X' : Nat → Prop := fun v => X v ∨ (v ∈ g ∧ c.copies v = false ∧ σ2.inval.hit v = true ∧ σ0.inval.hit v = false)
            have hX' : ∀ v, X' v → v ∉ reads x ++ reads a := by
              rintro v (hv | ⟨hg, hc, h2, h0⟩)
              · intro hm; exact hX v hv (.inr (List.mem_append.mp hm))
              · have hs := f3 v hg
                have FX := flows (v := v) (js := []) x f5 (by simp) hx nd.2.2.1.1 (by simp) (fun m hm => by rw [px m hm]; rfl) hs hc
                have FA := flows (v := v) (js := []) a f6 (by simp) ha nd.2.2.1.2.1 (by simp) (fun m hm => by rw [pa m hm]; rfl) hs hc
                exact (FX.comp FA).fresh h2 h0
            have SX := fun {d o d1} (hK : Knows c X' g σ0.inval d) (hr : Run c x d o d1) =>
              ihx (js := []) f5 (by simp) hx nd.2.2.1.1 (by simp) px ki
                (fun v hv hm => hX' v hv (List.mem_append.mpr (.inl hm))) hK hr
            have SA := fun {d o d1} (hK : Knows c X' (after x g) σ1.inval d) (hr : Run c a d o d1) =>
              iha (js := []) f6 (by simp) ha nd.2.2.1.2.1 (by simp) pa (after_known x (js := []) f5 (by simp) hx ki)
                (fun v hv hm => hX' v hv (List.mem_append.mpr (.inr hm))) hK hr
            have fin : ∀ {d}, Knows c X' g σ2.inval d → Knows c X g σ2.inval d := fun hd v hv hc hb => by
              rcases hd v hv hc hb with h | h | h
              · exact .inl h
              · exact .inr h
              · exact .inl h.2.2.1
            have all : ∀ {d o d1}, Iter (Run c x) (Run c a) l d o d1 → Knows c X' g σ0.inval d →
                Good c X js g g { σ2 with used := σ.used ++ c.clear σ2.used r } o d1 := by
              intro d o d1 hit
              induction hit with
              | out h h1 h2 =>
                intro hd
                have := SX hd h
                rename_i d o d1
                cases o with
                | normal => exact (h1 rfl).elim
                | wrong => exact this
                | jump m => exact absurd this.1 (by simp)
              | brk h => intro hd; exact absurd (SX hd h).1 (by simp)
              | done h =>
                intro hd
                have this : Knows c X' (after x g) σ1.inval _ := SX hd h
                exact fin (this.sub (after_sub x g) keepA)
              | out2 h h' h1 h2 =>
                intro hd
                have := SA (SX hd h) h'
                rename_i d d1 o d2
                cases o with
                | normal => exact (h1 rfl).elim
                | wrong => exact this
                | jump m => exact absurd this.1 (by simp)
              | brk2 h h' => intro hd; exact absurd (SA (SX hd h) h').1 (by simp)
              | done2 h h' =>
                intro hd
                have this : Knows c X' (after a (after x g)) σ2.inval _ := SA (SX hd h) h'
                exact fin (this.sub (fun v hv => after_sub a _ v (after_sub x g v hv)) (fun _ _ _ h => h))
              | again h h' _ ih =>
                intro hd
                have this : Knows c X' (after a (after x g)) σ2.inval _ := SA (SX hd h) h'
                refine ih (fun v hv hc hb => ?_)
                rcases this v (after_sub a _ v (after_sub x g v hv)) hc hb with h2 | h2
                · cases h0 : σ0.inval.hit v with
                  | true => exact .inl rfl
                  | false => exact .inr (.inr ⟨hv, hc, h2, h0⟩)
                · exact .inr h2
            exact all hr2 (fun v hv hc hb => (hI v hv hc hb).imp id .inl)
  | jump l e ih =>
    intro env r js g σ τ X d d1 o hf he h nd hj hp hk hX hK hr
    simp only [bck] at h
    rw [he l hf.1] at h
    cases ha : bck c env r r e σ with
    | error e => rw [ha] at h; cases h
    | ok ρ =>
      rw [ha] at h
      injection h with h
      subst h
      have A := fun {o d1} (hr : Run c e d o d1) => ih hf.2 he ha nd hj hp hk hX hK hr
      have up : ∀ m v, (ρ.postevt m).hit v = true →
          (if m = l then merge (ρ.postevt l) ρ.inval else ρ.postevt m).hit v = true := by
        intro m v h
        by_cases e : m = l
        · rw [if_pos e, hit_merge, ← e, h]; rfl
        · rw [if_neg e]; exact h
      rcases hr with ⟨hr, ho⟩ | ⟨d0, hr, rfl, rfl⟩
      · have := A hr
        cases o with
        | normal => exact (ho rfl).elim
        | wrong => exact this
        | jump m => exact ⟨this.1, this.2.sub (fun _ h => h) (fun v _ _ h => up m v h)⟩
      · have this : Knows c X (after e g) ρ.inval _ := A hr
        refine ⟨hf.1, this.sub (after_sub e g) (fun v _ _ h => ?_)⟩
        dsimp only
        rw [if_pos rfl, hit_merge, h, Bool.or_true]

/-- **C97.** A function the checker accepts never uses a reference that a write made bad, whichever branches it takes and
however often its loops go round. Missing: the functions `Fine` leaves out, for which it is false (`BckBugs.lean`). -/
theorem sound_partial {c : Cfg} {args : List Nat} {h : Nat} {body : Node} {τ : St}
    (hf : Fine none [] args (.block h body)) (hl : (labels (.block h body)).Nodup) (hc : check c args h body = .ok τ) :
    ∀ d, ¬ Run c (.block h body) (fun _ => False) .wrong d := by
  intro d hr
  exact sound_all (X := fun _ => False) (.block h body) (js := []) hf (by simp) hc hl (by simp) (fun _ _ => rfl) (fun _ h => h)
    (fun _ h => h.elim) (fun _ _ _ h => h.elim) hr

/-- **C97.** And no such function ends in a jump to a label it does not have. -/
theorem sound_jump_partial {c : Cfg} {args : List Nat} {h : Nat} {body : Node} {τ : St}
    (hf : Fine none [] args (.block h body)) (hl : (labels (.block h body)).Nodup) (hc : check c args h body = .ok τ) :
    ∀ l d, ¬ Run c (.block h body) (fun _ => False) (.jump l) d := by
  intro l d hr
  have := (sound_all (X := fun _ => False) (.block h body) (js := []) hf (by simp) hc hl (by simp) (fun _ _ => rfl) (fun _ h => h)
    (fun _ h => h.elim) (fun _ _ _ h => h.elim) hr).1
  cases this

/-- the references bound in a node -/
def binds : Node → List Nat
  | .seq a b => binds a ++ binds b
  | .bind v i => v :: binds i
  | .block _ b => binds b
  | .cond x a b => binds x ++ (binds a ++ binds b)
  | .opt n => binds n
  | .loop _ _ i x a => binds i ++ (binds x ++ binds a)
  | .jump _ e => binds e
  | _ => []

/-- only known references have events -/
def Known (σ : St) : Prop :=
  (∀ v, σ.inval.hit v = true → v ∈ σ.known) ∧ ∀ h v, (σ.postevt h).hit v = true → v ∈ σ.known

theorem restore_known {e s : Events} {r : Start} {v : Nat} (h : (restore e s r).hit v = true) :
    e.hit v = true ∨ s.hit v = true := by
  cases r with
  | none => exact .inr h
  | some k =>
    rw [hit_restore] at h
    by_cases hv : v < k
    · rw [if_pos hv] at h; exact .inl h
    · rw [if_neg hv] at h; exact .inr h

theorem forget_sub {m : Events} {v u : Nat} (h : (m.forget v).hit u = true) : m.hit u = true := by
  by_cases e : u = v
  · subst e
    unfold Events.forget Events.hit at *
    simp only [List.getD_eq_getElem?_getD] at *
    rw [List.getElem?_modify] at h
    cases hx : m[u]? with
    | none => rw [hx] at h; simp at h
    | some x => rw [hx] at h; simp at h
  · rw [hit_forget e] at h; exact h

theorem track_sub {c : Cfg} {r : Start} {v : Nat} {σ τ : St} (h : trackRead c r v σ = .ok τ) (u : Nat)
    (hu : τ.inval.hit u = true) : σ.inval.hit u = true := by
  unfold trackRead at h
  dsimp only at h
  split at h
  · split at h
    · injection h with h
      subst h
      by_cases ho : c.outside v r = true
      · rw [if_pos ho] at hu; exact forget_sub hu
      · rw [if_neg ho] at hu; exact forget_sub hu
    · cases h
  · injection h with h
    subst h
    by_cases ho : c.outside v r = true
    · rw [if_pos ho] at hu; exact hu
    · rw [if_neg ho] at hu; exact hu

/-- what a walk gives: no `BUG`, and references are known only if they were or are bound here -/
def Tame (n : Node) (σ : St) : Except Stop St → Prop
  | .ok τ => Known τ ∧ (∀ v ∈ σ.known, v ∈ τ.known) ∧ ∀ v ∈ τ.known, v ∈ σ.known ∨ v ∈ binds n
  | .error e => e = .refused

theorem tame {c : Cfg} (n : Node) : ∀ {env : Env} {r p : Start} {σ : St}, Known σ → (binds n).Nodup →
    (∀ v ∈ binds n, v ∉ σ.known) → Tame n σ (bck c env r p n σ) := by
  induction n with
  | skip => intro env r p σ hk _ _; exact ⟨hk, fun _ h => h, fun _ h => .inl h⟩
  | read v =>
    intro env r p σ hk _ _
    simp only [bck]
    cases h : trackRead c r v σ with
    | error e =>
      unfold trackRead at h
      dsimp only at h
      split at h
      · split at h
        · cases h
        · injection h with h; exact h.symm
      · cases h
    | ok τ =>
      obtain ⟨h1, h2, -⟩ := track_known h
      refine ⟨⟨fun u hu => h1 ▸ hk.1 u (track_sub h u hu), fun l u hu => h1 ▸ hk.2 l u (h2 ▸ hu)⟩, fun u hu => h1 ▸ hu,
        fun u hu => .inl (h1 ▸ hu)⟩
  | write w =>
    intro env r p σ hk _ _
    simp only [bck]
    cases h : trackWrite c p w σ with
    | error e =>
      unfold trackWrite at h
      dsimp only at h
      split at h
      · injection h with h; exact h.symm
      · cases h
    | ok τ =>
      obtain ⟨h1, h2, h3, h4, -⟩ := write_known h
      refine ⟨⟨fun u hu => ?_, fun l u hu => h1 ▸ hk.2 l u (h2 ▸ hu)⟩, fun u hu => h1 ▸ hu, fun u hu => .inl (h1 ▸ hu)⟩
      rw [h1]
      rcases (h4 u).mp hu with h | h
      · exact hk.1 u h
      · exact h.2
  | seq a b iha ihb =>
    intro env r p σ hk nd hn
    simp only [binds, List.nodup_append, List.mem_append] at nd hn
    simp only [bck]
    have A := iha (env := env) (r := r) (p := before env b p) hk nd.1 (fun v hv => hn v (.inl hv))
    cases ha : bck c env r (before env b p) a σ with
    | error e => rw [ha] at A; exact A
    | ok ρ =>
      rw [ha] at A
      obtain ⟨A1, A2, A3⟩ := A
      dsimp only
      have B := ihb (env := env) (r := r) (p := p) A1 nd.2.1 (fun v hv hm => by
        rcases A3 v hm with h | h
        · exact hn v (.inr hv) h
        · exact nd.2.2 v h v hv rfl)
      cases hb : bck c env r p b ρ with
      | error e => rw [hb] at B; exact B
      | ok τ =>
        rw [hb] at B
        obtain ⟨B1, B2, B3⟩ := B
        refine ⟨B1, fun v hv => B2 v (A2 v hv), fun v hv => ?_⟩
        simp only [binds, List.mem_append]
        rcases B3 v hv with h | h
        · exact (A3 v h).imp id .inl
        · exact .inr (.inr h)
  | bind u i ih =>
    intro env r p σ hk nd hn
    simp only [binds, List.nodup_cons, List.mem_cons] at nd hn
    simp only [bck]
    have A := ih (env := env) (r := r) (p := p) hk nd.2 (fun v hv => hn v (.inr hv))
    cases ha : bck c env r p i σ with
    | error e => rw [ha] at A; exact A
    | ok ρ =>
      rw [ha] at A
      obtain ⟨A1, A2, A3⟩ := A
      dsimp only
      by_cases hh : ρ.inval.hit u = true
      · rcases A3 u (A1.1 u hh) with h | h
        · exact (hn u (.inl rfl) h).elim
        · exact (nd.1 h).elim
      · rw [if_neg hh]
        refine ⟨⟨fun v hv => List.mem_cons_of_mem _ (A1.1 v hv), fun l v hv => List.mem_cons_of_mem _ (A1.2 l v hv)⟩,
          fun v hv => List.mem_cons_of_mem _ (A2 v hv), fun v hv => ?_⟩
        simp only [binds, List.mem_cons]
        rcases List.mem_cons.mp hv with h | h
        · exact .inr (.inl h)
        · exact (A3 v h).imp id .inr
  | block l b ih =>
    intro env r p σ hk nd hn
    simp only [bck]
    have A := ih (env := env.set l p) (r := r) (p := p) hk nd hn
    cases ha : bck c (env.set l p) r p b σ with
    | error e => rw [ha] at A; exact A
    | ok ρ =>
      rw [ha] at A
      obtain ⟨A1, A2, A3⟩ := A
      refine ⟨⟨fun v hv => ?_, A1.2⟩, A2, A3⟩
      dsimp only at hv
      rw [hit_merge, Bool.or_eq_true] at hv
      exact hv.elim (A1.1 v) (A1.2 l v)
  | cond x a b ihx iha ihb =>
    intro env r p σ hk nd hn
    simp only [binds, List.nodup_append, List.mem_append] at nd hn
    simp only [bck]
    have X := ihx (env := env) (r := r) (p := later (before env a p) (before env b p)) hk nd.1 (fun v hv => hn v (.inl hv))
    cases hx : bck c env r (later (before env a p) (before env b p)) x σ with
    | error e => rw [hx] at X; exact X
    | ok σ0 =>
      rw [hx] at X
      obtain ⟨X1, X2, X3⟩ := X
      dsimp only
      have A := iha (env := env) (r := r) (p := p) X1 nd.2.1.1 (fun v hv hm => by
        rcases X3 v hm with h | h
        · exact hn v (.inr (.inl hv)) h
        · exact nd.2.2 v h v (.inl hv) rfl)
      cases ha : bck c env r p a σ0 with
      | error e => rw [ha] at A; exact A
      | ok σ1 =>
        rw [ha] at A
        obtain ⟨A1, A2, A3⟩ := A
        dsimp only
        generalize hs : restore σ1.inval σ0.inval (before env (.cond x a b) p) = e
        have ke : Known { σ1 with inval := e } := by
          refine ⟨fun v hv => ?_, A1.2⟩
          dsimp only at hv
          rw [← hs] at hv
          rcases restore_known hv with h | h
          · exact A1.1 v h
          · exact A2 v (X1.1 v h)
        have B := ihb (env := env) (r := r) (p := p) ke nd.2.1.2.1 (fun v hv hm => by
          rcases A3 v hm with h | h
          · rcases X3 v h with h | h
            · exact hn v (.inr (.inr hv)) h
            · exact nd.2.2 v h v (.inr hv) rfl
          · exact nd.2.1.2.2 v h v hv rfl)
        cases hb : bck c env r p b { σ1 with inval := e } with
        | error e => rw [hb] at B; exact B
        | ok σ2 =>
          rw [hb] at B
          obtain ⟨B1, B2, B3⟩ := B
          refine ⟨⟨fun v hv => ?_, B1.2⟩, fun v hv => B2 v (A2 v (X2 v hv)), fun v hv => ?_⟩
          · dsimp only at hv
            rw [hit_merge, Bool.or_eq_true] at hv
            rcases hv with h | h
            · exact B1.1 v h
            · exact B2 v (A1.1 v h)
          · simp only [binds, List.mem_append]
            rcases B3 v hv with h | h
            · rcases A3 v h with h | h
              · exact (X3 v h).imp id .inl
              · exact .inr (.inr (.inl h))
            · exact .inr (.inr (.inr h))
  | opt n ih =>
    intro env r p σ hk nd hn
    simp only [bck]
    exact ih hk nd hn
  | loop l s i x a ihi ihx iha =>
    intro env r p σ hk nd hn
    simp only [binds, List.nodup_append, List.mem_append] at nd hn
    simp only [bck]
    have I := ihi (env := env) (r := r) (p := p) (σ := { σ with used := c.clear σ.used (before env i p) }) hk nd.1
      (fun v hv => hn v (.inl hv))
    cases hi : bck c env r p i { σ with used := c.clear σ.used (before env i p) } with
    | error e => rw [hi] at I; exact I
    | ok σ0 =>
      rw [hi] at I
      obtain ⟨I1, I2, I3⟩ := I
      dsimp only
      generalize hp : before (env.set l p) a (some s) = p2
      have X := ihx (env := env.set l p) (r := some s) (p := p2) I1 nd.2.1.1 (fun v hv hm => by
        rcases I3 v hm with h | h
        · exact hn v (.inr (.inl hv)) h
        · exact nd.2.2 v h v (.inl hv) rfl)
      cases hx : bck c (env.set l p) (some s) p2 x σ0 with
      | error e => rw [hx] at X; exact X
      | ok σ1 =>
        rw [hx] at X
        obtain ⟨X1, X2, X3⟩ := X
        dsimp only
        have A := iha (env := env.set l p) (r := some s) (p := some s) X1 nd.2.1.2.1 (fun v hv hm => by
          rcases X3 v hm with h | h
          · rcases I3 v h with h | h
            · exact hn v (.inr (.inr hv)) h
            · exact nd.2.2 v h v (.inr hv) rfl
          · exact nd.2.1.2.2 v h v hv rfl)
        cases ha : bck c (env.set l p) (some s) (some s) a σ1 with
        | error e => rw [ha] at A; exact A
        | ok σ2 =>
          rw [ha] at A
          obtain ⟨A1, A2, A3⟩ := A
          refine ⟨A1, fun v hv => A2 v (X2 v (I2 v hv)), fun v hv => ?_⟩
          simp only [binds, List.mem_append]
          rcases A3 v hv with h | h
          · rcases X3 v h with h | h
            · exact (I3 v h).imp id .inl
            · exact .inr (.inr (.inl h))
          · exact .inr (.inr (.inr h))
  | jump l e ih =>
    intro env r p σ hk nd hn
    simp only [bck]
    have A := ih (env := env) (r := r) (p := env l) hk nd hn
    cases ha : bck c env r (env l) e σ with
    | error e => rw [ha] at A; exact A
    | ok ρ =>
      rw [ha] at A
      obtain ⟨A1, A2, A3⟩ := A
      refine ⟨⟨fun v hv => ?_, fun m v hv => ?_⟩, A2, A3⟩
      · exact A1.1 v (restore_nil _ _ v hv)
      · dsimp only at hv
        by_cases e : m = l
        · rw [if_pos e, hit_merge, Bool.or_eq_true] at hv
          exact hv.elim (A1.2 l v) (A1.1 v)
        · rw [if_neg e] at hv; exact A1.2 m v hv

/-- **C97.** Whatever the function, the checker does not stop with `BUG` at a reference that is bound: it accepts it or says
what is wrong. (Every reference is bound in one place, and no argument is bound.) -/
theorem never_bug (c : Cfg) {args : List Nat} {h : Nat} {body : Node} (hb : (binds body).Nodup)
    (ha : ∀ v ∈ binds body, v ∉ args) : check c args h body ≠ .error .bug := by
  intro he
  have := tame (c := c) (env := fun _ => none) (r := none) (p := none) (.block h body) (σ := ⟨[], [], fun _ => [], args⟩)
    ⟨fun v hv => (by cases hv), fun _ v hv => (by cases hv)⟩ hb ha
  unfold check at he
  rw [he] at this
  cases this

end Verif.Bck
