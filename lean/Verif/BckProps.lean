import Verif.BckSpec
/-! # C97: proofs -/
namespace Verif.Bck

/-! ### events -/

theorem getD_grow (m : Events) (n v : Nat) : (grow m n).getD v [] = m.getD v [] := by
  unfold grow
  simp only [List.getD_eq_getElem?_getD]
  by_cases h : v < m.length
  · rw [List.getElem?_append_left h]
  · rw [List.getElem?_append_right (by omega), List.getElem?_eq_none (by omega : m.length ≤ v)]
    rw [List.getElem?_replicate]
    split <;> rfl

theorem hit_grow (m : Events) (n v : Nat) : (grow m n).hit v = m.hit v := by
  unfold Events.hit; rw [getD_grow]

theorem length_grow (m : Events) (n : Nat) : (grow m n).length = max m.length n := by
  unfold grow; simp; omega

theorem hit_note (m : Events) (v w u : Nat) : (m.note v w).hit u = (m.hit u || decide (u = v)) := by
  unfold Events.note Events.hit
  have hg := getD_grow m (v + 1) u
  have hl := length_grow m (v + 1)
  simp only [List.getD_eq_getElem?_getD] at hg ⊢
  rw [List.getElem?_modify]
  by_cases h : v = u
  · subst h
    have hlt : v < (grow m (v + 1)).length := by rw [hl]; omega
    rw [List.getElem?_eq_getElem hlt] at hg ⊢
    simp only [Option.getD_some] at hg
    simp
    by_cases he : (grow m (v + 1))[v] = []
    · simp [he]
    · simp [he]
  · have h' : ¬ u = v := fun e => h e.symm
    simp only [h, if_false, h', decide_false, Bool.or_false]
    simp [hg]

theorem hit_notes (l : List Nat) (m : Events) (w u : Nat) :
    (l.foldl (fun m v => m.note v w) m).hit u = (m.hit u || l.contains u) := by
  induction l generalizing m with
  | nil => simp
  | cons v l ih =>
    rw [List.foldl_cons, ih, hit_note, List.contains_cons]
    by_cases h : u = v
    · simp [h]
    · have : (u == v) = false := by simp [h]
      rw [this]; simp [h]

theorem hit_forget {m : Events} {v u : Nat} (h : u ≠ v) : (m.forget v).hit u = m.hit u := by
  unfold Events.forget Events.hit
  simp only [List.getD_eq_getElem?_getD]
  rw [List.getElem?_modify]
  have : ¬ v = u := fun e => h e.symm
  simp [this]

theorem hit_merge (a b : Events) (v : Nat) : (merge a b).hit v = (a.hit v || b.hit v) := by
  unfold merge Events.hit
  have hg := getD_grow a b.length v
  have hl := length_grow a b.length
  simp only [List.getD_eq_getElem?_getD] at hg ⊢
  rw [List.getElem?_mapIdx]
  by_cases h : v < (grow a b.length).length
  · rw [List.getElem?_eq_getElem h] at hg ⊢
    simp only [Option.getD_some, Option.map_some] at hg ⊢
    rw [hg]
    cases hx : a[v]?.getD [] with
    | cons x l => simp
    | nil =>
      have : (fun w : Nat => !([] : List Nat).contains w) = fun _ => true := by funext w; rfl
      rw [this, List.filter_eq_self.mpr (by simp)]; rfl
  · have hb : b[v]? = none := List.getElem?_eq_none (by omega)
    have ha : a[v]? = none := List.getElem?_eq_none (by omega)
    have hc : (grow a b.length)[v]? = none := List.getElem?_eq_none (by omega)
    rw [hc, ha, hb]
    rfl

theorem hit_restore (e src : Events) (s v : Nat) :
    (restore e src (some s)).hit v = if v < s then e.hit v else src.hit v := by
  unfold restore Events.hit
  dsimp only
  have hg := getD_grow (e.take s) s v
  have hl := length_grow (e.take s) s
  have htl : (e.take s).length ≤ s := by rw [List.length_take]; omega
  simp only [List.getD_eq_getElem?_getD] at hg ⊢
  by_cases h : v < s
  · rw [if_pos h]
    have ht : (e.take s)[v]? = e[v]? := by rw [List.getElem?_take, if_pos h]
    by_cases hs : src.length > s
    · rw [if_pos hs, List.getElem?_append_left (by rw [hl]; omega), hg, ht]
    · rw [if_neg hs, ht]
  · rw [if_neg h]
    by_cases hs : src.length > s
    · rw [if_pos hs, List.getElem?_append_right (by rw [hl]; omega), List.getElem?_drop, hl]
      have : s + (v - max (e.take s).length s) = v := by omega
      rw [this]
    · rw [if_neg hs, List.getElem?_eq_none (by omega), List.getElem?_eq_none (by omega)]

/-! ### in a fine function the write_loop_start is the innermost loop's -/

theorem later_self (r : Start) : later r r = r := by cases r <;> simp [later]

theorem before_fine (n : Node) : ∀ {env : Env} {r : Start} {js g : List Nat}, Fine r js g n → (∀ h ∈ js, env h = r) →
    before env n r = r := by
  induction n with
  | skip => intros; rfl
  | read v => intros; rfl
  | write w => intros; rfl
  | seq a b iha ihb => intro env r js g h he; simp only [before]; rw [ihb h.2 he, iha h.1 he]
  | bind v i ih => intro env r js g h he; simp only [before]; exact ih h he
  | block l b ih =>
    intro env r js g h he
    simp only [before]
    rw [ih h ?_, later_self]
    intro x hx
    unfold Env.set
    by_cases e : x = l
    · rw [if_pos e]
    · rw [if_neg e]; exact he x ((List.mem_cons.mp hx).resolve_left e)
  | cond x a b ihx iha ihb =>
    intro env r js g h he; simp only [before]; rw [iha h.2.1 he, ihb h.2.2 he, later_self, ihx h.1 he]
  | opt n ih => intro env r js g h he; simp only [before]; rw [ih (js := []) h (by simp), later_self]
  | loop l s i x a ihi _ _ => intro env r js g h he; simp only [before]; exact ihi h.1 he
  | jump l e ih =>
    intro env r js g h he
    simp only [before]
    rw [he l h.1]
    exact ih h.2 he

/-- the references a node uses -/
def reads : Node → List Nat
  | .read v => [v]
  | .seq a b => reads a ++ reads b
  | .bind _ i => reads i
  | .block _ b => reads b
  | .cond x a b => reads x ++ (reads a ++ reads b)
  | .opt n => reads n
  | .loop _ _ i x a => reads i ++ (reads x ++ reads a)
  | .jump _ e => reads e
  | _ => []

/-! ### what the walk does to what it knows -/

/-- facts about every variable -/
structure Grows (js : List Nat) (n : Node) (c : Cfg) (σ τ : St) : Prop where
  known : ∀ v ∈ σ.known, v ∈ τ.known
  post : ∀ h v, (σ.postevt h).hit v = true → (τ.postevt h).hit v = true
  same : ∀ h, h ∉ js → h ∉ labels n → τ.postevt h = σ.postevt h
  keep : ∀ v, c.copies v = false → σ.inval.hit v = true → τ.inval.hit v = true ∨ ∃ h ∈ js, (τ.postevt h).hit v = true

theorem Grows.refl (js : List Nat) (n : Node) (c : Cfg) (σ : St) : Grows js n c σ σ :=
  ⟨fun _ h => h, fun _ _ h => h, fun _ _ _ => rfl, fun _ _ h => .inl h⟩

/-- facts about a variable older than the innermost loop, for a part of the function with these reads and labels -/
structure Flows (R L : List Nat) (σ τ : St) (v : Nat) : Prop where
  keep : σ.inval.hit v = true → τ.inval.hit v = true
  unread : σ.inval.hit v = true → v ∉ R
  uses : v ∈ R → v ∈ τ.used
  safe : v ∈ σ.used → τ.inval.hit v = true → σ.inval.hit v = true
  fresh : τ.inval.hit v = true → σ.inval.hit v = false → v ∉ R
  used : v ∈ σ.used → v ∈ τ.used
  post : ∀ h, (τ.postevt h).hit v = true → h ∈ L ∨ (σ.postevt h).hit v = true ∨ τ.inval.hit v = true

theorem Flows.comp {R1 L1 R2 L2 : List Nat} {σ ρ τ : St} {v : Nat} (A : Flows R1 L1 σ ρ v) (B : Flows R2 L2 ρ τ v) :
    Flows (R1 ++ R2) (L1 ++ L2) σ τ v where
  keep h := B.keep (A.keep h)
  unread h := by
    rw [List.mem_append, not_or]
    exact ⟨A.unread h, B.unread (A.keep h)⟩
  uses h := by
    rcases List.mem_append.mp h with h | h
    · exact B.used (A.uses h)
    · exact B.uses h
  safe h1 h2 := A.safe h1 (B.safe (A.used h1) h2)
  fresh h1 h2 := by
    rw [List.mem_append, not_or]
    cases hr : ρ.inval.hit v with
    | true => exact ⟨A.fresh hr h2, B.unread hr⟩
    | false =>
      refine ⟨fun hm => ?_, B.fresh h1 hr⟩
      have := B.safe (A.uses hm) h1
      rw [hr] at this; cases this
  used h := B.used (A.used h)
  post l h := by
    rcases B.post l h with h | h | h
    · exact .inl (List.mem_append.mpr (.inr h))
    · rcases A.post l h with h | h | h
      · exact .inl (List.mem_append.mpr (.inl h))
      · exact .inr (.inl h)
      · exact .inr (.inr (B.keep h))
    · exact .inr (.inr h)

/-- only some of the state matters -/
theorem Flows.congr {R L : List Nat} {σ τ σ' τ' : St} {v : Nat} (A : Flows R L σ τ v)
    (h1 : σ'.inval.hit v = σ.inval.hit v) (h2 : v ∈ σ'.used ↔ v ∈ σ.used) (h3 : ∀ h, (σ'.postevt h).hit v = (σ.postevt h).hit v)
    (h4 : τ'.inval.hit v = τ.inval.hit v) (h5 : v ∈ τ'.used ↔ v ∈ τ.used)
    (h6 : ∀ h, (τ'.postevt h).hit v = true → h ∈ L ∨ (τ.postevt h).hit v = true ∨ τ.inval.hit v = true) :
    Flows R L σ' τ' v where
  keep := by rw [h1, h4]; exact A.keep
  unread := by rw [h1]; exact A.unread
  uses h := h5.mpr (A.uses h)
  safe := by rw [h1, h2, h4]; exact A.safe
  fresh := by rw [h1, h4]; exact A.fresh
  used := by rw [h2, h5]; exact A.used
  post l h := by
    rw [h3, h4]
    rcases h6 l h with h | h | h
    · exact .inl h
    · exact A.post l h
    · exact .inr (.inr h)

theorem Flows.mono {R L L' : List Nat} {σ τ : St} {v : Nat} (A : Flows R L σ τ v) (h : ∀ l ∈ L, l ∈ L') : Flows R L' σ τ v :=
  { A with post := fun l hl => (A.post l hl).imp (h l) id }

theorem track_known {c : Cfg} {r : Start} {v : Nat} {σ τ : St} (h : trackRead c r v σ = .ok τ) :
    τ.known = σ.known ∧ τ.postevt = σ.postevt ∧ (∀ u, u ∈ σ.used → u ∈ τ.used) ∧ (c.outside v r = true → v ∈ τ.used) ∧
    (∀ u, c.copies u = false → τ.inval.hit u = σ.inval.hit u) ∧ (c.copies v = false → σ.inval.hit v = false) ∧
    (∀ u, u ∈ τ.used → u = v ∨ u ∈ σ.used) := by
  unfold trackRead at h
  dsimp only at h
  cases hh : σ.inval.hit v with
  | true =>
    rw [hh] at h
    simp only [if_true] at h
    cases hc : c.copies v with
    | false => rw [hc] at h; simp at h
    | true =>
      rw [hc] at h
      simp only [if_true, Except.ok.injEq] at h
      have hne : ∀ u, c.copies u = false → u ≠ v := by intro u hu e; rw [e, hc] at hu; cases hu
      subst h
      by_cases ho : c.outside v r = true
      · rw [if_pos ho]
        exact ⟨rfl, rfl, fun u hu => List.mem_cons_of_mem _ hu, fun _ => List.mem_cons_self, fun u hu => hit_forget (hne u hu),
          fun e => (by cases e), fun u hu => List.mem_cons.mp hu⟩
      · rw [if_neg ho]
        exact ⟨rfl, rfl, fun u hu => hu, fun e => absurd e ho, fun u hu => hit_forget (hne u hu), fun e => (by cases e),
          fun u hu => .inr hu⟩
  | false =>
    rw [hh] at h
    simp only [Bool.false_eq_true, if_false, Except.ok.injEq] at h
    subst h
    by_cases ho : c.outside v r = true
    · rw [if_pos ho]
      exact ⟨rfl, rfl, fun u hu => List.mem_cons_of_mem _ hu, fun _ => List.mem_cons_self, fun u hu => rfl, fun _ => rfl,
        fun u hu => List.mem_cons.mp hu⟩
    · rw [if_neg ho]
      exact ⟨rfl, rfl, fun u hu => hu, fun e => absurd e ho, fun u hu => rfl, fun _ => rfl, fun u hu => .inr hu⟩

theorem write_known {c : Cfg} {p : Start} {w : Nat} {σ τ : St} (h : trackWrite c p w σ = .ok τ) :
    τ.known = σ.known ∧ τ.postevt = σ.postevt ∧ τ.used = σ.used ∧
    (∀ v, τ.inval.hit v = true ↔ σ.inval.hit v = true ∨ (v ∈ c.inv w ∧ v ∈ σ.known)) ∧
    (∀ v, v ∈ c.inv w → v ∈ σ.known → c.outside v p = true → v ∈ σ.used → c.copies v = true) := by
  unfold trackWrite at h
  dsimp only at h
  split at h
  · cases h
  · rename_i hn
    injection h with h
    subst h
    refine ⟨rfl, rfl, rfl, ?_, ?_⟩
    · intro v
      dsimp only
      rw [hit_notes]
      simp
    · intro v h1 h2 h3 h4
      cases hc : c.copies v with
      | true => rfl
      | false =>
        exfalso
        apply hn
        rw [List.any_eq_true]
        exact ⟨v, by simp [h1, h2], by simp [h3, h4, hc]⟩

theorem set_ok {env : Env} {js : List Nat} {r : Start} (he : ∀ h ∈ js, env h = r) (l : Nat) :
    ∀ h ∈ l :: js, (env.set l r) h = r := by
  intro x hx
  unfold Env.set
  by_cases e : x = l
  · rw [if_pos e]
  · rw [if_neg e]; exact he x ((List.mem_cons.mp hx).resolve_left e)

theorem hit_nil (v : Nat) : Events.hit [] v = false := rfl

theorem restore_nil (e : Events) (r : Start) (v : Nat) (h : (restore e [] r).hit v = true) : e.hit v = true := by
  cases r with
  | none => cases h
  | some s =>
    rw [hit_restore] at h
    by_cases hv : v < s
    · rw [if_pos hv] at h; exact h
    · rw [if_neg hv] at h; cases h

theorem clear_sub {c : Cfg} {l : List Nat} {r : Start} {v : Nat} (h : v ∈ c.clear l r) : v ∈ l := by
  cases r with
  | none => cases h
  | some s => exact (List.mem_filter.mp h).1

theorem clear_low {c : Cfg} {l : List Nat} {s : Nat} {v : Nat} (h : v ∈ l) (hs : v < s) : v ∈ c.clear l (some s) :=
  List.mem_filter.mpr ⟨h, by simp; omega⟩

theorem grows {c : Cfg} (n : Node) : ∀ {env : Env} {r : Start} {js g : List Nat} {σ τ : St}, Fine r js g n →
    (∀ h ∈ js, env h = r) → bck c env r r n σ = .ok τ → Grows js n c σ τ := by
  induction n with
  | skip => intro env r js g σ τ hf he h; injection h with h; rw [h]; exact .refl ..
  | read v =>
    intro env r js g σ τ hf he h
    obtain ⟨h1, h2, h3, h4, h5, h6, h7⟩ := track_known h
    exact ⟨fun u hu => h1 ▸ hu, fun l u hu => h2 ▸ hu, fun l _ _ => by rw [h2], fun u hc hu => .inl (by rw [h5 u hc]; exact hu)⟩
  | write w =>
    intro env r js g σ τ hf he h
    obtain ⟨h1, h2, h3, h4, h5⟩ := write_known h
    exact ⟨fun u hu => h1 ▸ hu, fun l u hu => h2 ▸ hu, fun l _ _ => by rw [h2], fun u hc hu => .inl ((h4 u).mpr (.inl hu))⟩
  | seq a b iha ihb =>
    intro env r js g σ τ hf he h
    simp only [bck] at h
    rw [before_fine b hf.2 he] at h
    cases ha : bck c env r r a σ with
    | error e => rw [ha] at h; cases h
    | ok ρ =>
      rw [ha] at h
      have A := iha hf.1 he ha
      have B := ihb hf.2 he h
      refine ⟨fun v hv => B.known v (A.known v hv), fun l v hv => B.post l v (A.post l v hv), ?_, ?_⟩
      · intro l h1 h2
        simp only [labels, List.mem_append, not_or] at h2
        rw [B.same l h1 h2.2, A.same l h1 h2.1]
      · intro v hc hv
        rcases A.keep v hc hv with h1 | ⟨l, hl, h1⟩
        · exact B.keep v hc h1
        · exact .inr ⟨l, hl, B.post l v h1⟩
  | bind v i ih =>
    intro env r js g σ τ hf he h
    simp only [bck] at h
    cases ha : bck c env r r i σ with
    | error e => rw [ha] at h; cases h
    | ok ρ =>
      rw [ha] at h
      dsimp only at h
      split at h
      · cases h
      · injection h with h
        subst h
        have A := ih hf he ha
        exact ⟨fun u hu => List.mem_cons_of_mem _ (A.known u hu), A.post, A.same, A.keep⟩
  | block l b ih =>
    intro env r js g σ τ hf he h
    simp only [bck] at h
    cases ha : bck c (env.set l r) r r b σ with
    | error e => rw [ha] at h; cases h
    | ok ρ =>
      rw [ha] at h
      injection h with h
      subst h
      have A := ih hf (set_ok he l) ha
      refine ⟨A.known, A.post, ?_, ?_⟩
      · intro x h1 h2
        simp only [labels, List.mem_cons, not_or] at h2
        exact A.same x (by simp [h1, h2.1]) h2.2
      · intro v hc hv
        dsimp only
        rw [hit_merge]
        rcases A.keep v hc hv with h1 | ⟨x, hx, h1⟩
        · left; rw [h1]; rfl
        · rcases List.mem_cons.mp hx with e | e
          · left; rw [← e, h1]; simp
          · exact .inr ⟨x, e, h1⟩
  | cond x a b ihx iha ihb =>
    intro env r js g σ τ hf he h
    have hb := before_fine (.cond x a b) hf he
    simp only [bck] at h
    rw [before_fine a hf.2.1 he, before_fine b hf.2.2 he, later_self, hb] at h
    cases hx : bck c env r r x σ with
    | error e => rw [hx] at h; cases h
    | ok σ0 =>
      rw [hx] at h
      dsimp only at h
      cases ha : bck c env r r a σ0 with
      | error e => rw [ha] at h; cases h
      | ok σ1 =>
        rw [ha] at h
        dsimp only at h
        cases hb : bck c env r r b { σ1 with inval := restore σ1.inval σ0.inval r } with
        | error e => rw [hb] at h; cases h
        | ok σ2 =>
          rw [hb] at h
          injection h with h
          subst h
          have X := ihx hf.1 he hx
          have A := iha hf.2.1 he ha
          have B := ihb hf.2.2 he hb
          refine ⟨fun v hv => B.known v (A.known v (X.known v hv)), fun l v hv => B.post l v (A.post l v (X.post l v hv)), ?_, ?_⟩
          · intro l h1 h2
            simp only [labels, List.mem_append, not_or] at h2
            have e1 := B.same l h1 h2.2.2
            have e2 := A.same l h1 h2.2.1
            have e3 := X.same l h1 h2.1
            dsimp only at e1 ⊢
            rw [e1, e2, e3]
          · intro v hc hv
            dsimp only
            rw [hit_merge]
            rcases X.keep v hc hv with h1 | ⟨l, hl, h1⟩
            · rcases A.keep v hc h1 with h1 | ⟨l, hl, h1⟩
              · left; rw [h1]; simp
              · exact .inr ⟨l, hl, B.post l v h1⟩
            · exact .inr ⟨l, hl, B.post l v (A.post l v h1)⟩
  | opt n ih =>
    intro env r js g σ τ hf he h
    simp only [bck] at h
    have A := ih (js := []) hf (by simp) h
    exact ⟨A.known, A.post, fun l _ h2 => A.same l (by simp) h2, fun v hc hv => .inl ((A.keep v hc hv).resolve_right (by simp))⟩
  | loop l s i x a ihi ihx iha =>
    intro env r js g σ τ hf he h
    obtain ⟨f1, f2, f3, f4, f5, f6⟩ := hf
    simp only [bck] at h
    rw [before_fine i f1 he] at h
    rw [before_fine (env := env.set l r) (js := []) a f6 (by simp)] at h
    cases hi : bck c env r r i { σ with used := c.clear σ.used r } with
    | error e => rw [hi] at h; cases h
    | ok σ0 =>
      rw [hi] at h
      dsimp only at h
      cases hx : bck c (env.set l r) (some s) (some s) x σ0 with
      | error e => rw [hx] at h; cases h
      | ok σ1 =>
        rw [hx] at h
        dsimp only at h
        cases ha : bck c (env.set l r) (some s) (some s) a σ1 with
        | error e => rw [ha] at h; cases h
        | ok σ2 =>
          rw [ha] at h
          injection h with h
          subst h
          have I := ihi f1 he hi
          have X := ihx (js := []) f5 (by simp) hx
          have A := iha (js := []) f6 (by simp) ha
          refine ⟨fun v hv => A.known v (X.known v (I.known v hv)), fun l v hv => A.post l v (X.post l v (I.post l v hv)), ?_, ?_⟩
          · intro l' h1 h2
            simp only [labels, List.mem_append, List.mem_cons, not_or] at h2
            have e1 := A.same l' (by simp) h2.2.2.2
            have e2 := X.same l' (by simp) h2.2.2.1
            have e3 := I.same l' h1 h2.2.1
            dsimp only at e3 ⊢
            rw [e1, e2, e3]
          · intro v hc hv
            rcases I.keep v hc hv with h1 | ⟨l', hl, h1⟩
            · have h2 := (X.keep v hc h1).resolve_right (by simp)
              exact .inl ((A.keep v hc h2).resolve_right (by simp))
            · exact .inr ⟨l', hl, A.post l' v (X.post l' v h1)⟩
  | jump l e ih =>
    intro env r js g σ τ hf he h
    simp only [bck] at h
    rw [he l hf.1] at h
    cases ha : bck c env r r e σ with
    | error e => rw [ha] at h; cases h
    | ok ρ =>
      rw [ha] at h
      injection h with h
      subst h
      have A := ih hf.2 he ha
      refine ⟨A.known, ?_, ?_, ?_⟩
      · intro x v hv
        dsimp only
        by_cases e : x = l
        · rw [if_pos e, hit_merge, ← e, A.post x v hv]; rfl
        · rw [if_neg e]; exact A.post x v hv
      · intro x h1 h2
        dsimp only
        have : x ≠ l := fun e => h1 (e ▸ hf.1)
        rw [if_neg this]
        exact A.same x h1 h2
      · intro v hc hv
        right
        dsimp only
        rcases A.keep v hc hv with h1 | ⟨x, hx, h1⟩
        · exact ⟨l, hf.1, by rw [if_pos rfl, hit_merge, h1]; simp⟩
        · refine ⟨x, hx, ?_⟩
          by_cases e : x = l
          · rw [if_pos e, hit_merge, ← e, h1]; rfl
          · rw [if_neg e]; exact h1

theorem flows {c : Cfg} (n : Node) : ∀ {env : Env} {s : Nat} {js g : List Nat} {σ τ : St} {v : Nat},
    Fine (some s) js g n → (∀ h ∈ js, env h = some s) → bck c env (some s) (some s) n σ = .ok τ →
    (labels n).Nodup → (∀ h ∈ labels n, h ∉ js) → (∀ h ∈ labels n, (σ.postevt h).hit v = false) →
    v < s → c.copies v = false → Flows (reads n) (labels n) σ τ v := by
  induction n with
  | skip =>
    intro env s js g σ τ v hf he h _ _ _ _ _
    injection h with h; subst h
    exact ⟨id, fun _ => by simp [reads], by simp [reads], fun _ h => h, fun _ _ => by simp [reads], id, fun _ h => .inr (.inl h)⟩
  | read u =>
    intro env s js g σ τ v hf he h _ _ _ hv hc
    obtain ⟨h1, h2, h3, h4, h5, h6, h7⟩ := track_known h
    refine ⟨fun h => by rw [h5 v hc]; exact h, ?_, ?_, fun _ h => by rw [← h5 v hc]; exact h, ?_, h3 v, fun l h => .inr (.inl (h2 ▸ h))⟩
    · intro hh hm
      simp only [reads, List.mem_singleton] at hm
      rw [hm] at hh hc
      rw [h6 hc] at hh; cases hh
    · intro hm
      simp only [reads, List.mem_singleton] at hm
      rw [hm] at hv ⊢
      exact h4 (by simp [Cfg.outside]; omega)
    · intro a b
      rw [h5 v hc, b] at a; cases a
  | write w =>
    intro env s js g σ τ v hf he h _ _ _ hv hc
    obtain ⟨h1, h2, h3, h4, h5⟩ := write_known h
    refine ⟨fun h => (h4 v).mpr (.inl h), fun _ => by simp [reads], by simp [reads], ?_, fun _ _ => by simp [reads],
      fun h => by rw [h3]; exact h, fun l h => .inr (.inl (h2 ▸ h))⟩
    intro hu hh
    rcases (h4 v).mp hh with h | ⟨ha, hb⟩
    · exact h
    · have := h5 v ha hb (by simp [Cfg.outside]; omega) hu
      rw [hc] at this; cases this
  | seq a b iha ihb =>
    intro env s js g σ τ v hf he h nd hj hp hv hc
    simp only [bck] at h
    rw [before_fine b hf.2 he] at h
    cases ha : bck c env (some s) (some s) a σ with
    | error e => rw [ha] at h; cases h
    | ok ρ =>
      rw [ha] at h
      simp only [labels, List.nodup_append] at nd
      simp only [labels, List.mem_append] at hj hp
      have G := grows a hf.1 he ha
      exact (iha hf.1 he ha nd.1 (fun l hl => hj l (.inl hl)) (fun l hl => hp l (.inl hl)) hv hc).comp
        (ihb hf.2 he h nd.2.1 (fun l hl => hj l (.inr hl))
          (fun l hl => by rw [G.same l (hj l (.inr hl)) (fun hm => nd.2.2 l hm l hl rfl)]; exact hp l (.inr hl)) hv hc)
  | bind u i ih =>
    intro env s js g σ τ v hf he h nd hj hp hv hc
    simp only [bck] at h
    cases ha : bck c env (some s) (some s) i σ with
    | error e => rw [ha] at h; cases h
    | ok ρ =>
      rw [ha] at h
      dsimp only at h
      split at h
      · cases h
      · injection h with h
        subst h
        exact (ih hf he ha nd hj hp hv hc).congr rfl Iff.rfl (fun _ => rfl) rfl Iff.rfl (fun l h => .inr (.inl h))
  | block l b ih =>
    intro env s js g σ τ v hf he h nd hj hp hv hc
    simp only [bck] at h
    cases ha : bck c (env.set l (some s)) (some s) (some s) b σ with
    | error e => rw [ha] at h; cases h
    | ok ρ =>
      rw [ha] at h
      injection h with h
      subst h
      simp only [labels, List.nodup_cons] at nd
      simp only [labels, List.mem_cons] at hj hp
      have A := ih (v := v) hf (set_ok he l) ha nd.2
        (fun x hx hm => by
          rcases List.mem_cons.mp hm with e | e
          · exact nd.1 (e ▸ hx)
          · exact hj x (.inr hx) e)
        (fun x hx => hp x (.inr hx)) hv hc
      have hl : (ρ.postevt l).hit v = true → ρ.inval.hit v = true := by
        intro hh
        rcases A.post l hh with h | h | h
        · exact absurd h nd.1
        · rw [hp l (.inl rfl)] at h; cases h
        · exact h
      refine (A.congr (τ' := { ρ with inval := merge ρ.inval (ρ.postevt l) }) rfl Iff.rfl (fun _ => rfl) ?_ Iff.rfl
        (fun l h => .inr (.inl h))).mono
        (fun x hx => List.mem_cons_of_mem _ hx)
      dsimp only
      rw [hit_merge]
      cases h1 : ρ.inval.hit v with
      | true => rfl
      | false =>
        cases h2 : (ρ.postevt l).hit v with
        | true => rw [hl h2] at h1; cases h1
        | false => rfl
  | cond x a b ihx iha ihb =>
    intro env s js g σ τ v hf he h nd hj hp hv hc
    have hb := before_fine (.cond x a b) hf he
    simp only [bck] at h
    rw [before_fine a hf.2.1 he, before_fine b hf.2.2 he, later_self, hb] at h
    cases hx : bck c env (some s) (some s) x σ with
    | error e => rw [hx] at h; cases h
    | ok σ0 =>
      rw [hx] at h
      dsimp only at h
      cases ha : bck c env (some s) (some s) a σ0 with
      | error e => rw [ha] at h; cases h
      | ok σ1 =>
        rw [ha] at h
        dsimp only at h
        cases hb : bck c env (some s) (some s) b { σ1 with inval := restore σ1.inval σ0.inval (some s) } with
        | error e => rw [hb] at h; cases h
        | ok σ2 =>
          rw [hb] at h
          injection h with h
          subst h
          simp only [labels, List.nodup_append, List.mem_append] at nd
          simp only [labels, List.mem_append] at hj hp
          have GX := grows x hf.1 he hx
          have GA := grows a hf.2.1 he ha
          have X := ihx hf.1 he hx nd.1 (fun l hl => hj l (.inl hl)) (fun l hl => hp l (.inl hl)) hv hc
          have A := iha (v := v) hf.2.1 he ha nd.2.1.1 (fun l hl => hj l (.inr (.inl hl)))
            (fun l hl => by
              rw [GX.same l (hj l (.inr (.inl hl))) (fun hm => nd.2.2 l hm l (.inl hl) rfl)]; exact hp l (.inr (.inl hl))) hv hc
          have B := ihb (v := v) hf.2.2 he hb nd.2.1.2.1 (fun l hl => hj l (.inr (.inr hl)))
            (fun l hl => by
              dsimp only
              rw [GA.same l (hj l (.inr (.inr hl))) (fun hm => nd.2.1.2.2 l hm l hl rfl),
                GX.same l (hj l (.inr (.inr hl))) (fun hm => nd.2.2 l hm l (.inr hl) rfl)]
              exact hp l (.inr (.inr hl))) hv hc
          have e1 : (restore σ1.inval σ0.inval (some s)).hit v = σ1.inval.hit v := by rw [hit_restore, if_pos hv]
          have B' := B.congr (σ' := σ1) (τ' := { σ2 with inval := merge σ2.inval σ1.inval }) e1.symm Iff.rfl (fun _ => rfl) ?_ Iff.rfl
            (fun l h => .inr (.inl h))
          · exact X.comp (A.comp B')
          · dsimp only
            rw [hit_merge]
            cases h1 : σ1.inval.hit v with
            | false => simp
            | true =>
              have := B.keep (by dsimp only; rw [e1]; exact h1)
              rw [this]; rfl
  | opt n ih =>
    intro env s js g σ τ v hf he h nd hj hp hv hc
    simp only [bck] at h
    exact ih (js := []) hf (by simp) h nd (by simp) hp hv hc
  | loop l s2 i x a ihi ihx iha =>
    intro env s js g σ τ v hf he h nd hj hp hv hc
    obtain ⟨f1, f2, f3, f4, f5, f6⟩ := hf
    simp only [bck] at h
    rw [before_fine i f1 he] at h
    rw [before_fine (env := env.set l (some s)) (js := []) a f6 (by simp)] at h
    cases hi : bck c env (some s) (some s) i { σ with used := c.clear σ.used (some s) } with
    | error e => rw [hi] at h; cases h
    | ok σ0 =>
      rw [hi] at h
      dsimp only at h
      cases hx : bck c (env.set l (some s)) (some s2) (some s2) x σ0 with
      | error e => rw [hx] at h; cases h
      | ok σ1 =>
        rw [hx] at h
        dsimp only at h
        cases ha : bck c (env.set l (some s)) (some s2) (some s2) a σ1 with
        | error e => rw [ha] at h; cases h
        | ok σ2 =>
          rw [ha] at h
          injection h with h
          subst h
          have hv2 : v < s2 := by have := f4 s rfl; omega
          simp only [labels, List.nodup_cons, List.nodup_append, List.mem_append] at nd
          simp only [labels, List.mem_cons, List.mem_append] at hj hp
          have GI := grows i f1 he hi
          have GX := grows (js := []) x f5 (by simp) hx
          have I := ihi (v := v) f1 he hi nd.2.1 (fun l hl => hj l (.inr (.inl hl))) (fun l hl => hp l (.inr (.inl hl))) hv hc
          have X := ihx (v := v) (js := []) f5 (by simp) hx nd.2.2.1.1 (by simp)
            (fun l hl => by
              rw [GI.same l (hj l (.inr (.inr (.inl hl)))) (fun hm => nd.2.2.2 l hm l (.inl hl) rfl)]
              exact hp l (.inr (.inr (.inl hl)))) hv2 hc
          have A := iha (v := v) (js := []) f6 (by simp) ha nd.2.2.1.2.1 (by simp)
            (fun l hl => by
              rw [GX.same l (by simp) (fun hm => nd.2.2.1.2.2 l hm l hl rfl),
                GI.same l (hj l (.inr (.inr (.inr hl)))) (fun hm => nd.2.2.2 l hm l (.inr hl) rfl)]
              exact hp l (.inr (.inr (.inr hl)))) hv2 hc
          have C := I.comp (X.comp A)
          refine (C.congr (σ' := σ) (τ' := { σ2 with used := σ.used ++ c.clear σ2.used (some s) }) rfl ?_ (fun _ => rfl) rfl ?_
            (fun l h => .inr (.inl h))).mono
            (fun x hx => List.mem_cons_of_mem _ hx)
          · exact ⟨fun h => clear_low h hv, fun h => clear_sub (c := c) (r := some s) h⟩
          · dsimp only
            rw [List.mem_append]
            constructor
            · rintro (h | h)
              · exact C.used (clear_low h hv)
              · exact clear_sub h
            · intro h; exact .inr (clear_low h hv)
  | jump l e ih =>
    intro env s js g σ τ v hf he h nd hj hp hv hc
    simp only [bck] at h
    rw [he l hf.1] at h
    cases ha : bck c env (some s) (some s) e σ with
    | error e => rw [ha] at h; cases h
    | ok ρ =>
      rw [ha] at h
      injection h with h
      subst h
      refine (ih (v := v) hf.2 he ha nd hj hp hv hc).congr rfl Iff.rfl (fun _ => rfl) ?_ Iff.rfl ?_
      · dsimp only; rw [hit_restore, if_pos hv]
      · intro x h
        dsimp only at h
        by_cases e : x = l
        · rw [if_pos e, hit_merge, Bool.or_eq_true] at h
          right
          rcases h with h | h
          · exact .inl (e ▸ h)
          · exact .inr h
        · rw [if_neg e] at h; exact .inr (.inl h)

end Verif.Bck
