import Verif.FoldSolve
/-! # `createOr`, `createAnd` and `createNot` keep the meaning, and so does solving -/
namespace Verif.Fold

section
variable {S T J : Type} {I : Sem S T J} {cs : Canon → Canon → Option Canon}

theorem last_split {es : List E} {last : E} (h : es.getLast? = some last) : es = es.dropLast ++ [last] := by
  have hne : es ≠ [] := by rintro rfl; cases h
  rw [List.getLast?_eq_some_getLast hne] at h
  injection h with h
  subst h
  exact (List.dropLast_concat_getLast hne).symm

theorem Items.last {Γ : List Nat} {look : Bool} {a : List E} {p : E} (h : Items I Γ look (a ++ [p])) : Good I Γ look p :=
  goodL_one.1 ((goodL_append (by simp)).1 h.good).2

theorem Items.init {Γ : List Nat} {look : Bool} {a : List E} {p : E} (h : Items I Γ look (a ++ [p])) : ∀ e ∈ a, Good I Γ true e :=
  goodL_mem.1 ((goodL_append (by simp)).1 h.good).1

/-! ## `createOr` -/

theorem sumOr_ok (hcs : CsOk cs) {anyBool : Bool} : ∀ (ts : List Ty) (sum : Option Ty) (t : Ty), sumOr cs anyBool ts sum = .ok (some t) →
    (∀ u ∈ sum, WfTy u ∧ u.isNever = false) → (∀ u ∈ ts, WfTy u) →
    WfTy t ∧ t.isNever = false ∧ ∀ v : Option T, ((∃ u ∈ sum, Says u v) ∨ ∃ u ∈ ts, u.isNever = false ∧ Says u v) → Says t v
  | [], sum, t, h, hs, _ => by
    rw [sumOr] at h
    injection h with h
    subst h
    refine ⟨(hs t rfl).1, (hs t rfl).2, ?_⟩
    rintro v (⟨u, hu, h⟩ | ⟨u, hu, _⟩)
    · cases hu; exact h
    · cases hu
  | u :: ts, sum, t, h, hs, hw => by
    rw [sumOr.eq_def] at h
    dsimp only at h
    by_cases hn : u.isNever = true
    · rw [if_pos hn] at h
      obtain ⟨h1, h2, h3⟩ := sumOr_ok hcs ts sum t h hs fun x hx => hw x (List.mem_cons_of_mem _ hx)
      refine ⟨h1, h2, ?_⟩
      rintro v (hh | ⟨x, hx, h4, h5⟩)
      · exact h3 v (Or.inl hh)
      · rcases List.mem_cons.1 hx with rfl | hx
        · rw [hn] at h4; cases h4
        · exact h3 v (Or.inr ⟨x, hx, h4, h5⟩)
    · rw [if_neg hn] at h
      have hn : u.isNever = false := by simpa using hn
      cases sum with
      | none =>
        obtain ⟨h1, h2, h3⟩ := sumOr_ok hcs ts (some u) t h (by rintro x hx; cases hx; exact ⟨hw _ (by simp), hn⟩)
          fun x hx => hw x (List.mem_cons_of_mem _ hx)
        refine ⟨h1, h2, ?_⟩
        rintro v (⟨x, hx, _⟩ | ⟨x, hx, h4, h5⟩)
        · cases hx
        · rcases List.mem_cons.1 hx with rfl | hx
          · exact h3 v (Or.inl ⟨x, rfl, h5⟩)
          · exact h3 v (Or.inr ⟨x, hx, h4, h5⟩)
      | some w =>
        dsimp only at h
        cases ht : trySuper cs w u with
        | none =>
          rw [ht] at h
          cases anyBool <;> cases h
        | some z =>
          rw [ht] at h
          have hw' := hs w rfl
          obtain ⟨h1, h2, h3⟩ := sumOr_ok hcs ts (some z) t h
            (by rintro x hx; cases hx; exact ⟨trySuper_wf hcs ht hw'.1 (hw _ (by simp)), trySuper_never hcs ht hw'.2 hn⟩)
            fun x hx => hw x (List.mem_cons_of_mem _ hx)
          refine ⟨h1, h2, ?_⟩
          rintro v (⟨x, hx, h4⟩ | ⟨x, hx, h4, h5⟩)
          · cases hx
            exact h3 v (Or.inl ⟨z, rfl, trySuper_says hcs ht (Or.inl h4)⟩)
          · rcases List.mem_cons.1 hx with rfl | hx
            · exact h3 v (Or.inl ⟨z, rfl, trySuper_says hcs ht (Or.inr h5)⟩)
            · exact h3 v (Or.inr ⟨x, hx, h4, h5⟩)

theorem ok_inj {α : Type} {a b : α} (h : (Except.ok a : X α) = .ok b) : a = b := by injection h

/-- The type of `||`, `createOr`, `src/solver.fu` 11519-11594. -/
theorem createOr_ok (hcs : CsOk cs) {Γ : List Nat} {es : List E} {type : Ty} {e : E} (hi : Items I Γ type.look es)
    (h : createOr cs es type = .ok e) : Good I Γ type.look e ∧ e.mean I = M.or (means I es) ∧ ∀ l, cnt l e ≤ cntL l es := by
  unfold createOr at h
  cases hf : staticEvalFold .isFalse es with
  | error x => rw [hf] at h; cases h
  | ok r =>
    obtain ⟨es1, trim⟩ := r
    rw [hf] at h
    simp only [bind, Except.bind] at h
    obtain ⟨g1, g2, g3, g4⟩ := staticEvalFold_ok (k := false) hi hf
    obtain ⟨t1, t2, t3, _⟩ := staticEvalTrim_ok g1 g3
    generalize staticEvalTrim trim es1 = items at h t1 t2 t3
    have hmean : M.or (means I items) = M.or (means I es) := t2.trans g2
    have hcnt : ∀ l, cntL l items ≤ cntL l es := fun l => Nat.le_trans (t3 l) (g4 l)
    cases hl : items.getLast? with
    | none => rw [hl] at h; cases h
    | some last =>
      rw [hl] at h
      dsimp only at h
      have hsp := last_split hl
      generalize items.dropLast = init at hsp
      subst hsp
      have hlast := t1.last
      have hinit := t1.init
      by_cases c1 : (init ++ [last]).length < 2
      · rw [if_pos c1] at h
        cases ok_inj h
        have : init = [] := by
          cases init with
          | nil => rfl
          | cons a b => exfalso; simp at c1; omega
        subst this
        refine ⟨hlast, ?_, fun l => ?_⟩
        · rw [← hmean]; simp only [List.nil_append, means_cons, means_nil]; rfl
        · have := hcnt l; simp [cntL] at this; exact this
      · rw [if_neg c1] at h
        -- the type
        have key : ∀ t : Ty, WfTy t → t.isNever = false →
            (∀ e ∈ init ++ [last], ∀ s s' v, e.mean I s = some (s', .val v) → type.look = true → Says t v) →
            ∀ e, Except.ok (E.or (init ++ [last]) (if last.ty.isNever || last.ty.aT then { t with aT := true, aF := false } else t)) = (.ok e : X E) →
            Good I Γ type.look e ∧ e.mean I = M.or (means I es) ∧ ∀ l, cnt l e ≤ cntL l es := by
          intro t hw hn hs e he
          cases ok_inj he
          refine ⟨⟨⟨?_, fun s s' v hx => ⟨?_, fun hlk => ?_⟩⟩, t1.good, by simp, ?_⟩, ?_, ?_⟩
          · split <;> exact hw
          · split <;> exact hn
          · rw [mean_or, means_append, means_cons, means_nil] at hx
            have hv := or_val hx
            have hsv : Says t v := by
              rcases hv with ⟨_, x, hx, s1, s2, h1⟩ | ⟨s1, s2, h1⟩
              · obtain ⟨f, hf, rfl⟩ := mem_means hx
                exact hs f (by simp [hf]) _ _ _ h1 hlk
              · exact hs last (by simp) _ _ _ h1 hlk
            split
            · next hc =>
              have hv2 : v ≠ none := by
                rcases hv with ⟨h1, _⟩ | ⟨s1, s2, h1⟩
                · intro hh; rw [hh] at h1; cases h1
                · rcases Bool.or_eq_true_iff.1 hc with hc | hc
                  · exact absurd h1 (hlast.facts.noVal hc _ _ _)
                  · exact ((hlast.facts.2 _ _ _ h1).2 hlk).1 hc
              exact ⟨fun _ => hv2, fun hh => by (cases hh), hsv.2.2⟩
            · exact hsv
          · split <;> exact hn
          · rw [mean_or]; exact hmean
          · intro l; rw [cnt]; exact hcnt l
        have keyB := key tBool (by intro hh; cases hh) rfl fun _ _ _ _ v _ _ => says_tBool v
        by_cases c2 : type.voidOrProp = true
        · rw [if_pos c2] at h
          exact keyB e h
        · rw [if_neg c2] at h
          cases hso : sumOr cs ((init ++ [last]).any fun e => e.ty.canon == .bool) ((init ++ [last]).reverse.map E.ty) none with
          | error x => rw [hso] at h; cases h
          | ok r =>
            rw [hso] at h
            cases r with
            | none => exact keyB e h
            | some t =>
              have hall : ∀ f ∈ init ++ [last], WfTy f.ty := by
                intro f hf
                rcases List.mem_append.1 hf with hf | hf
                · exact (hinit f hf).facts.1
                · simp at hf; subst hf; exact hlast.facts.1
              obtain ⟨s1, s2, s3⟩ := sumOr_ok (T := T) hcs _ _ _ hso (by intro u hu; cases hu) (by
                intro u hu
                simp only [List.mem_map, List.mem_reverse] at hu
                obtain ⟨f, hf, rfl⟩ := hu
                exact hall f hf)
              refine key t s1 s2 ?_ e h
              intro f hf s s' v hx hlk
              have hff : f.ty.isNever = false ∧ (type.look = true → Says f.ty v) := by
                rcases List.mem_append.1 hf with hf | hf
                · have := (hinit f hf).facts.2 _ _ _ hx
                  exact ⟨this.1, fun _ => this.2 rfl⟩
                · simp at hf; subst hf; exact hlast.facts.2 _ _ _ hx
              refine s3 v (Or.inr ⟨f.ty, ?_, hff.1, hff.2 hlk⟩)
              simp only [List.mem_map, List.mem_reverse]
              exact ⟨f, hf, rfl⟩

/-! ## `createAnd` -/

theorem andTail_ok {Γ : List Nat} {look : Bool} {es : List E} {trim : Nat} {t : Ty} {e : E} (hi : Items I Γ look es) (ht : TrimOk I true trim es)
    (hw : WfTy t) (hn : t.isNever = false)
    (hs : ∀ s s' v, M.and (means I es) s = some (s', .val v) → 2 ≤ es.length → look = true → Says t v)
    (h : andTail es trim t = .ok e) : Good I Γ look e ∧ e.mean I = M.and (means I es) ∧ ∀ l, cnt l e ≤ cntL l es := by
  unfold andTail at h
  dsimp only at h
  obtain ⟨t1, t2, t3, t4⟩ := staticEvalTrim_ok hi ht
  have hlen : (staticEvalTrim trim es).length ≤ es.length := by
    unfold staticEvalTrim
    split
    · simp; omega
    · exact Nat.le_refl _
  generalize staticEvalTrim trim es = items at h t1 t2 t3 t4 hlen
  have hmean : M.and (means I items) = M.and (means I es) := t2
  cases hl : items.getLast? with
  | none => rw [hl] at h; cases h
  | some last =>
    rw [hl] at h
    dsimp only at h
    have hsp := last_split hl
    generalize items.dropLast = init at hsp
    subst hsp
    have hlast := t1.last
    by_cases c1 : (init ++ [last]).length < 2
    · rw [if_pos c1] at h
      cases ok_inj h
      have : init = [] := by
        cases init with
        | nil => rfl
        | cons a b => exfalso; simp at c1; omega
      subst this
      refine ⟨hlast, ?_, fun l => ?_⟩
      · rw [← hmean]; simp only [List.nil_append, means_cons, means_nil]; rfl
      · have := t3 l; simp [cntL] at this; exact this
    · rw [if_neg c1] at h
      cases ok_inj h
      have hsay : ∀ s s' v, M.and (means I (init ++ [last])) s = some (s', .val v) → look = true →
          Says (if trim ≠ 0 then { t with aF := true } else t) v := by
        intro s s' v hx hlk
        have h1 := hs s s' v (by rw [← hmean]; exact hx) (by omega) hlk
        split
        · next hne =>
          refine ⟨h1.1, fun _ => ?_, h1.2.2⟩
          obtain ⟨a, p, hap, hp⟩ := t4 hne
          rw [hap, means_append, means_cons, means_nil] at hx
          rcases and_val hx with ⟨h2, _⟩ | ⟨s1, s2, h2⟩
          · exact h2
          · exact hp _ _ _ h2
        · exact h1
      refine ⟨⟨⟨?_, fun s s' v hx => ⟨?_, fun hlk => ?_⟩⟩, t1.good, by simp, ?_⟩, ?_, ?_⟩
      · split <;> split <;> exact hw
      · split <;> split <;> exact hn
      · rw [mean_and] at hx
        have h1 := hsay _ _ _ hx hlk
        split
        · next hc =>
          have hv : v = none := by
            rw [means_append, means_cons, means_nil] at hx
            rcases and_val hx with ⟨h2, _⟩ | ⟨s1, s2, h2⟩
            · exact h2
            · rcases Bool.or_eq_true_iff.1 hc with hc | hc
              · exact absurd h2 (hlast.facts.noVal hc _ _ _)
              · exact ((hlast.facts.2 _ _ _ h2).2 hlk).2.1 hc
          exact ⟨fun hh => by (cases hh), fun _ => hv, fun _ => hv, fun _ => hv⟩
        · exact h1
      · split <;> split <;> exact hn
      · rw [mean_and]; exact hmean
      · intro l; rw [cnt]; exact t3 l

theorem createAndBool_ok {Γ : List Nat} {look : Bool} {es : List E} {e : E} (hi : Items I Γ look es) (h : createAndBool es = .ok e) :
    Good I Γ look e ∧ e.mean I = M.and (means I es) ∧ ∀ l, cnt l e ≤ cntL l es := by
  unfold createAndBool at h
  cases hf : staticEvalFold .isTrue es with
  | error x => rw [hf] at h; cases h
  | ok r =>
    obtain ⟨es1, trim⟩ := r
    rw [hf] at h
    obtain ⟨g1, g2, g3, g4⟩ := staticEvalFold_ok (k := true) hi hf
    obtain ⟨r1, r2, r3⟩ := andTail_ok g1 g3 (t := tBool) (by intro hh; cases hh) rfl (fun _ _ v _ _ _ => says_tBool v) h
    exact ⟨r1, r2.trans g2, fun l => Nat.le_trans (r3 l) (g4 l)⟩

theorem clean_tNone : tNone.clean = true := rfl

theorem sumAnd_some (hcs : CsOk cs) : ∀ (ts : List Ty) (ty u type ty' sum : Ty), sumAnd cs ts (some (ty, u)) type = (ty', sum) →
    sum.clean = false → WfTy u → u.isNever = false → (∀ t ∈ ts, WfTy t) →
    WfTy sum ∧ sum.isNever = false ∧ ∀ v : Option T, (Says u v ∨ ∃ t ∈ ts, t.isNever = false ∧ Says t v) → Says sum v
  | [], ty, u, type, ty', sum, h, hc, hw, hn, _ => by
    rw [sumAnd] at h
    injection h with h1 h2
    subst h1 h2
    refine ⟨hw, hn, ?_⟩
    rintro v (h | ⟨t, ht, _⟩)
    · exact h
    · cases ht
  | t :: ts, ty, u, type, ty', sum, h, hc, hw, hn, hts => by
    rw [sumAnd] at h
    have hts' : ∀ x ∈ ts, WfTy x := fun x hx => hts x (List.mem_cons_of_mem _ hx)
    by_cases c : t.isNever = true
    · rw [if_pos c] at h
      obtain ⟨h1, h2, h3⟩ := sumAnd_some hcs ts ty u type ty' sum h hc hw hn hts'
      refine ⟨h1, h2, ?_⟩
      rintro v (h | ⟨x, hx, h4, h5⟩)
      · exact h3 v (Or.inl h)
      · rcases List.mem_cons.1 hx with rfl | hx
        · rw [c] at h4; cases h4
        · exact h3 v (Or.inr ⟨x, hx, h4, h5⟩)
    · rw [if_neg c] at h
      have c : t.isNever = false := by simpa using c
      dsimp only at h
      by_cases c2 : ((trySuper cs u t).getD tNone).clean = true
      · rw [if_pos c2] at h
        injection h with h1 h2
        rw [h2] at c2
        rw [c2] at hc; cases hc
      · rw [if_neg c2] at h
        cases ht : trySuper cs u t with
        | none => rw [ht] at c2; exact absurd clean_tNone c2
        | some w =>
          rw [ht] at h
          obtain ⟨h1, h2, h3⟩ := sumAnd_some hcs ts ty w type ty' sum h hc (trySuper_wf hcs ht hw (hts _ (by simp)))
            (trySuper_never hcs ht hn c) hts'
          refine ⟨h1, h2, ?_⟩
          rintro v (h | ⟨x, hx, h4, h5⟩)
          · exact h3 v (Or.inl (trySuper_says hcs ht (Or.inl h)))
          · rcases List.mem_cons.1 hx with rfl | hx
            · exact h3 v (Or.inl (trySuper_says hcs ht (Or.inr h5)))
            · exact h3 v (Or.inr ⟨x, hx, h4, h5⟩)

theorem sumAnd_none (hcs : CsOk cs) : ∀ (ts : List Ty) (type ty' sum : Ty), sumAnd cs ts none type = (ty', sum) →
    sum.clean = false → (∀ t ∈ ts, WfTy t) →
    WfTy sum ∧ sum.isNever = false ∧ ∀ v : Option T, (∃ t ∈ ts, t.isNever = false ∧ Says t v) → Says sum v
  | [], type, ty', sum, h, hc, _ => by
    rw [sumAnd] at h
    injection h with h1 h2
    subst h2
    cases hc
  | t :: ts, type, ty', sum, h, hc, hts => by
    rw [sumAnd] at h
    have hts' : ∀ x ∈ ts, WfTy x := fun x hx => hts x (List.mem_cons_of_mem _ hx)
    by_cases c : t.isNever = true
    · rw [if_pos c] at h
      obtain ⟨h1, h2, h3⟩ := sumAnd_none hcs ts type ty' sum h hc hts'
      refine ⟨h1, h2, ?_⟩
      rintro v ⟨x, hx, h4, h5⟩
      rcases List.mem_cons.1 hx with rfl | hx
      · rw [c] at h4; cases h4
      · exact h3 v ⟨x, hx, h4, h5⟩
    · rw [if_neg c] at h
      have c : t.isNever = false := by simpa using c
      by_cases c2 : (t.canon == .zeroes) = true
      · rw [if_pos c2] at h
        injection h with h1 h2
        subst h2
        have := hts t (by simp) (by simpa using c2)
        rw [this] at hc; cases hc
      · rw [if_neg c2] at h
        obtain ⟨h1, h2, h3⟩ := sumAnd_some (T := T) hcs ts t t type ty' sum h hc (hts _ (by simp)) c hts'
        refine ⟨h1, h2, ?_⟩
        rintro v ⟨x, hx, h4, h5⟩
        rcases List.mem_cons.1 hx with rfl | hx
        · exact h3 v (Or.inl h5)
        · exact h3 v (Or.inr ⟨x, hx, h4, h5⟩)

theorem and_snoc {xs : List (M S T J)} (h : xs ≠ []) (y : M S T J) : M.and (xs ++ [y]) = (M.and xs).ite y (M.pure none) := by
  induction xs with
  | nil => exact absurd rfl h
  | cons x xs ih =>
    rw [List.cons_append, M.and_cons (by simp)]
    cases xs with
    | nil => rfl
    | cons z zs =>
      rw [ih (by simp), M.and_cons (x := x) (xs := z :: zs) (by simp)]
      unfold M.ite
      rw [M.bind_assoc]
      refine M.bind_congr fun s s' v _ => ?_
      cases v <;> rfl

theorem createAnd_ok (hcs : CsOk cs) {Γ : List Nat} {es : List E} {type : Ty} {e : E} (hi : Items I Γ type.look es)
    (h : createAnd cs es type = .ok e) : Good I Γ type.look e ∧ e.mean I = M.and (means I es) ∧ ∀ l, cnt l e ≤ cntL l es := by
  unfold createAnd at h
  cases hf : staticEvalFold .isTrue es with
  | error x => rw [hf] at h; cases h
  | ok r =>
    obtain ⟨es1, trim⟩ := r
    rw [hf] at h
    simp only [bind, Except.bind] at h
    obtain ⟨g1, g2, g3, g4⟩ := staticEvalFold_ok (k := true) hi hf
    have hmean : M.and (means I es1) = M.and (means I es) := g2
    by_cases c1 : (decide (es1.length > 1) && !type.voidOrProp) = true
    · rw [if_pos c1] at h
      simp only [Bool.and_eq_true, decide_eq_true_eq, Bool.not_eq_true'] at c1
      have hlook : type.look = true := by
        have := c1.2
        unfold Ty.voidOrProp at this
        simp at this
        simp [Ty.look, this.2]
      cases hsa : sumAnd cs (es1.reverse.map E.ty) none type with
      | mk ty sum =>
        rw [hsa] at h
        dsimp only at h
        by_cases c2 : sum.clean = true
        · rw [if_pos c2] at h
          cases hl : es1.getLast? with
          | none => rw [hl] at h; cases h
          | some cons =>
            rw [hl] at h
            dsimp only at h
            have hsp := last_split hl
            cases hcond : createAndBool es1.dropLast with
            | error x => rw [hcond] at h; cases h
            | ok cond =>
              rw [hcond] at h
              dsimp only at h
              have hne : es1.dropLast ≠ [] := by
                intro hh
                rw [hh] at hsp
                rw [hsp] at c1
                simp at c1
              generalize es1.dropLast = init at hsp hcond hne
              subst hsp
              have hinit : Items I Γ true init := ⟨((goodL_append (by simp)).1 g1.good).1, hne,
                g1.uniq.mono fun l => by simp [cntL_append]⟩
              obtain ⟨q1, q2, q3⟩ := createAndBool_ok hinit hcond
              have hcons := g1.last
              rw [hlook] at hcons
              have hdef : Good I Γ tNone.look (solveDefinit ty) := by
                refine ⟨fun _ => definit_clean ty, fun s s' v hx => ⟨definit_never ty, fun _ => ?_⟩⟩
                unfold solveDefinit E.mean M.pure at hx
                simp at hx
                rw [← hx.2]
                exact Says.definit ty
              obtain ⟨w1, w2, w3⟩ := createIf_ok hcs q1 (type := tNone) hcons hdef
                (g1.uniq.mono fun l => by simp [cntL_append, cntL]) (by intro l; exact ⟨by simp [solveDefinit, cnt], fun _ => rfl⟩) h
              rw [hlook]
              refine ⟨w1, ?_, fun l => ?_⟩
              · rw [w2, ← hmean, means_append, means_cons, means_nil, and_snoc (means_ne hne), q2]
                rfl
              · have := w3 l
                have := q3 l
                have := g4 l
                simp [cntL_append, cntL, solveDefinit, cnt] at *
                omega
        · rw [if_neg c2] at h
          have hall : ∀ f ∈ es1, WfTy f.ty := by
            have hg := g1.good
            rw [hlook] at hg
            intro f hf
            exact (goodL_mem.1 hg f hf).facts.1
          obtain ⟨s1, s2, s3⟩ := sumAnd_none (T := T) hcs _ _ _ _ hsa (by simpa using c2) (by
            intro u hu
            simp only [List.mem_map, List.mem_reverse] at hu
            obtain ⟨f, hf, rfl⟩ := hu
            exact hall f hf)
          obtain ⟨r1, r2, r3⟩ := andTail_ok g1 g3 (t := sum) s1 s2 (by
            intro s s' v hx _ _
            have hg := g1.good
            rw [hlook] at hg
            have say : ∀ f ∈ es1, ∀ s s' v, f.mean I s = some (s', .val v) → Says sum v := by
              intro f hf s s' v hx
              have := (goodL_mem.1 hg f hf).facts.2 _ _ _ hx
              refine s3 v ⟨f.ty, ?_, this.1, this.2 rfl⟩
              simp only [List.mem_map, List.mem_reverse]
              exact ⟨f, hf, rfl⟩
            cases hl : es1.getLast? with
            | none =>
              rw [List.getLast?_eq_none_iff] at hl
              exact absurd hl g1.ne
            | some last =>
              have hsp := last_split hl
              generalize es1.dropLast = init at hsp
              subst hsp
              rw [means_append, means_cons, means_nil] at hx
              rcases and_val hx with ⟨rfl, x, hx, s1, s2, h1⟩ | ⟨s1, s2, h1⟩
              · obtain ⟨f, hf, rfl⟩ := mem_means hx
                exact say f (by simp [hf]) _ _ _ h1
              · exact say last (by simp) _ _ _ h1) h
          exact ⟨r1, r2.trans g2, fun l => Nat.le_trans (r3 l) (g4 l)⟩
    · rw [if_neg c1] at h
      obtain ⟨r1, r2, r3⟩ := andTail_ok g1 g3 (t := tBool) (by intro hh; cases hh) rfl (fun _ _ v _ _ _ => says_tBool v) h
      exact ⟨r1, r2.trans g2, fun l => Nat.le_trans (r3 l) (g4 l)⟩

/-! ## `createNot` -/

theorem not_facts {Γ : List Nat} {k : Bool} {a : E} {t : Ty} (ha : Good I Γ true a) (hw : WfTy t) (hn : t.isNever = false) (hz : t.canon ≠ .zeroes) (hr : t.rel = true)
    (hT : t.aT = true → Fals (a.mean I)) (hF : t.aF = true → Tru (a.mean I)) : Good I Γ k (.not a t) := by
  refine ⟨⟨hw, fun s s' v hx => ⟨hn, fun _ => ?_⟩⟩, ha⟩
  rw [mean_not] at hx
  obtain ⟨s1, u, h1, h2⟩ := M.bind_val hx
  unfold M.pure at h2
  simp at h2
  obtain ⟨_, rfl⟩ := h2
  refine ⟨fun ht => ?_, fun ht => ?_, fun hh => absurd hh hz, fun hh => by rw [hr] at hh; cases hh⟩
  · rw [hT ht _ _ _ h1]; simp
  · have := hF ht _ _ _ h1
    rw [if_pos this]

theorem createNot_ok {Γ : List Nat} {k : Bool} {a e : E} (ha : Good I Γ true a) (h : createNot a = .ok e) :
    Good I Γ k e ∧ e.mean I = (E.not a tBool).mean I ∧ ∀ l, cnt l e ≤ cnt l a := by
  have gen : (do
      match ← absEval a.ty false with
      | .unknown => return .not a tBool
      | .isTrue => return .not a { tBool with aF := true }
      | .isFalse => return .not a { tBool with aT := true } : X E) = .ok e →
      Good I Γ k e ∧ e.mean I = (E.not a tBool).mean I ∧ ∀ l, cnt l e ≤ cnt l a := by
    intro h
    cases hae : absEval a.ty false with
    | error x => rw [hae] at h; cases h
    | ok se =>
      rw [hae] at h
      simp only [bind, Except.bind] at h
      cases se with
      | unknown =>
        cases ok_inj h
        exact ⟨not_facts ha (by intro hh; cases hh) rfl (by intro hh; cases hh) rfl (by intro hh; cases hh) (by intro hh; cases hh), rfl,
          fun l => by rw [cnt]; exact Nat.le_refl _⟩
      | isTrue =>
        cases ok_inj h
        exact ⟨not_facts ha (by intro hh; cases hh) rfl (by intro hh; cases hh) rfl (by intro hh; cases hh)
          (fun _ => ha.facts.tru (absEval_true hae)), by rw [mean_not, mean_not], fun l => by rw [cnt]; exact Nat.le_refl _⟩
      | isFalse =>
        cases ok_inj h
        exact ⟨not_facts ha (by intro hh; cases hh) rfl (by intro hh; cases hh) rfl (fun _ => ha.facts.fals (absEval_false hae))
          (by intro hh; cases hh), by rw [mean_not, mean_not], fun l => by rw [cnt]; exact Nat.le_refl _⟩
  cases a with
  | bool b t =>
    rw [createNot] at h
    cases ok_inj h
    refine ⟨⟨(by intro hh; cases hh), fun s s' v hx => ⟨rfl, fun _ => ?_⟩⟩, ?_, fun l => (by rw [cnt, cnt]; exact Nat.le_refl _)⟩
    · unfold E.mean M.pure at hx
      simp at hx
      obtain ⟨_, rfl⟩ := hx
      cases b <;> exact ⟨by simp, by simp, (by intro hh; cases hh), (by intro hh; cases hh)⟩
    · rw [mean_not]
      unfold E.mean
      cases b <;> rfl
  | _ => exact gen h

/-! ## Solving -/

theorem Uniq.left {Γ : List Nat} {f g : Nat → Nat} (h : Uniq Γ fun l => f l + g l) : Uniq Γ f := h.mono fun l => by omega
theorem Uniq.right {Γ : List Nat} {f g : Nat → Nat} (h : Uniq Γ fun l => f l + g l) : Uniq Γ g := h.mono fun l => by omega

theorem srcMeans_ne {as : List Src} (h : as ≠ []) : srcMeans I as ≠ [] := by
  cases as with
  | nil => exact absurd rfl h
  | cons a as => simp [srcMeans]

theorem comb_cons {k : Bool} {x : M S T J} {xs ys : List (M S T J)} (hx : xs ≠ []) (hy : ys ≠ []) (h : comb k xs = comb k ys) :
    comb k (x :: xs) = comb k (x :: ys) := by
  rw [show x :: xs = [x] ++ xs from rfl, show x :: ys = [x] ++ ys from rfl, comb_append k _ xs hx, comb_append k _ ys hy, h]

mutual
theorem solve_ok (hcs : CsOk cs) {Γ : List Nat} : ∀ (s : Src) (type : Ty) (e : E), SrcGood I Γ s → Uniq Γ (fun l => srcCnt l s) →
    solve cs s type = .ok e → Good I Γ type.look e ∧ e.mean I = s.mean I ∧ ∀ l, cnt l e ≤ srcCnt l s
  | .leaf e', type, e, hg, hu, h => by
    rw [solve] at h
    cases ok_inj h
    rw [SrcGood] at hg
    rw [Src.mean]
    exact ⟨hg.low, rfl, fun l => by rw [srcCnt]; exact Nat.le_refl _⟩
  | .not a, type, e, hg, hu, h => by
    rw [solve] at h
    rw [SrcGood] at hg
    simp only [srcCnt] at hu
    cases ha : solve cs a tProp with
    | error x => rw [ha] at h; cases h
    | ok a' =>
      rw [ha] at h
      obtain ⟨h1, h2, h3⟩ := solve_ok hcs a tProp a' hg hu ha
      obtain ⟨n1, n2, n3⟩ := createNot_ok (k := type.look) h1 h
      refine ⟨n1, ?_, fun l => by rw [srcCnt]; exact Nat.le_trans (n3 l) (h3 l)⟩
      rw [n2, mean_not, h2, Src.mean]
  | .or as, type, e, hg, hu, h => by
    rw [solve] at h
    rw [SrcGood] at hg
    simp only [srcCnt] at hu
    cases ha : solveNodes cs as type (if type.canon == .void then tProp else type) .isTrue true with
    | error x => rw [ha] at h; cases h
    | ok es =>
      rw [ha] at h
      obtain ⟨h1, h2, h3, h4⟩ := solveNodes_ok hcs false as type _ .isTrue true es hg.2 hg.1 hu (by
        split
        · rfl
        · next hh => simp at hh; simp [Ty.look, hh]) (Or.inr rfl) ha
      obtain ⟨n1, n2, n3⟩ := createOr_ok hcs ⟨h1, h2, hu.mono h4⟩ h
      refine ⟨n1, ?_, fun l => by rw [srcCnt]; exact Nat.le_trans (n3 l) (h4 l)⟩
      rw [n2, Src.mean]
      exact h3
  | .and as, type, e, hg, hu, h => by
    rw [solve] at h
    rw [SrcGood] at hg
    simp only [srcCnt] at hu
    cases ha : solveNodes cs as type tProp (if type.voidOrProp = true then .isFalse else .unknown) type.voidOrProp with
    | error x => rw [ha] at h; cases h
    | ok es =>
      rw [ha] at h
      obtain ⟨h1, h2, h3, h4⟩ := solveNodes_ok hcs true as type _ _ _ es hg.2 hg.1 hu rfl (by
        cases type.voidOrProp
        · exact Or.inl rfl
        · exact Or.inr rfl) ha
      obtain ⟨n1, n2, n3⟩ := createAnd_ok hcs ⟨h1, h2, hu.mono h4⟩ h
      refine ⟨n1, ?_, fun l => by rw [srcCnt]; exact Nat.le_trans (n3 l) (h4 l)⟩
      rw [n2, Src.mean]
      exact h3
  | .ite c a b, type, e, hg, hu, h => by
    rw [solve] at h
    rw [SrcGood] at hg
    simp only [srcCnt] at hu
    cases hc : solve cs c tProp with
    | error x => rw [hc] at h; cases h
    | ok c' =>
      rw [hc] at h
      simp only [bind, Except.bind] at h
      obtain ⟨c1, c2, c3⟩ := solve_ok hcs c tProp c' hg.1 hu.left.left hc
      have c1 : Good I Γ true c' := c1
      by_cases hn : c'.ty.isNever = true
      · rw [if_pos hn] at h
        cases ok_inj h
        refine ⟨c1.low, ?_, fun l => by rw [srcCnt]; have := c3 l; omega⟩
        rw [Src.mean, ← c2]
        refine (M.bind_pure _).symm.trans (M.bind_congr fun s s' v hx => ?_)
        exact absurd hx (c1.facts.noVal hn _ _ _)
      · rw [if_neg hn] at h
        cases hae : absEval c'.ty false with
        | error x => rw [hae] at h; cases h
        | ok se =>
          rw [hae] at h
          dsimp only at h
          cases se with
          | isTrue =>
            cases ha : solve cs a type with
            | error x => rw [ha] at h; cases h
            | ok a' =>
              rw [ha] at h
              cases ok_inj h
              obtain ⟨a1, a2, a3⟩ := solve_ok hcs a type a' hg.2.1 hu.left.right ha
              have hua : Uniq Γ fun l => cnt l a' := hu.left.right.mono a3
              refine ⟨createBlock_good c1 a1 hua, ?_, fun l => ?_⟩
              · rw [createBlock_mean c1 a1 hua, Src.mean, ← c2, ← a2]
                refine M.bind_congr fun s s' v hx => ?_
                rw [if_pos (c1.facts.tru (absEval_true hae) _ _ _ hx)]
              · rw [srcCnt]
                have := cnt_createBlock l c' a'
                have := c3 l
                have := a3 l
                omega
          | isFalse =>
            cases hb : solve cs b type with
            | error x => rw [hb] at h; cases h
            | ok b' =>
              rw [hb] at h
              cases ok_inj h
              obtain ⟨b1, b2, b3⟩ := solve_ok hcs b type b' hg.2.2 hu.right hb
              have hub : Uniq Γ fun l => cnt l b' := hu.right.mono b3
              refine ⟨createBlock_good c1 b1 hub, ?_, fun l => ?_⟩
              · rw [createBlock_mean c1 b1 hub, Src.mean, ← c2, ← b2]
                refine M.bind_congr fun s s' v hx => ?_
                rw [c1.facts.fals (absEval_false hae) _ _ _ hx]; rfl
              · rw [srcCnt]
                have := cnt_createBlock l c' b'
                have := c3 l
                have := b3 l
                omega
          | unknown =>
            cases ha : solve cs a type with
            | error x => rw [ha] at h; cases h
            | ok a' =>
              cases hb : solve cs b type with
              | error x => rw [ha, hb] at h; cases h
              | ok b' =>
                rw [ha, hb] at h
                dsimp only at h
                obtain ⟨a1, a2, a3⟩ := solve_ok hcs a type a' hg.2.1 hu.left.right ha
                obtain ⟨b1, b2, b3⟩ := solve_ok hcs b type b' hg.2.2 hu.right hb
                obtain ⟨r1, r2, r3⟩ := createIf_ok hcs c1 a1 b1 (hu.left.right.mono a3) (hu.right.mono b3) h
                refine ⟨r1, ?_, fun l => ?_⟩
                · rw [r2, Src.mean, c2, a2, b2]
                · rw [srcCnt]
                  have := r3 l
                  have := c3 l
                  have := a3 l
                  have := b3 l
                  omega

theorem solveNodes_ok (hcs : CsOk cs) {Γ : List Nat} (k : Bool) : ∀ (as : List Src) (tl ta : Ty) (brk : SE) (dead : Bool) (es : List E),
    as ≠ [] → SrcGoodL I Γ as → Uniq Γ (fun l => srcCntL l as) → ta.look = true → (brk = .unknown ∨ brk = haltSE k) →
    solveNodes cs as tl ta brk dead = .ok es →
    GoodL I Γ true tl.look es ∧ es ≠ [] ∧ comb k (means I es) = comb k (srcMeans I as) ∧ ∀ l, cntL l es ≤ srcCntL l as
  | [], _, _, _, _, _, hne, _, _, _, _, _ => absurd rfl hne
  | [a], tl, ta, brk, dead, es, _, hg, hu, hta, hbrk, h => by
    rw [solveNodes] at h
    rw [SrcGoodL] at hg
    simp only [srcCntL] at hu
    cases ha : solve cs a tl with
    | error x => rw [ha] at h; cases h
    | ok e =>
      rw [ha] at h
      simp only [bind, Except.bind] at h
      obtain ⟨a1, a2, a3⟩ := solve_ok hcs a tl e hg.1 hu.left ha
      have hes : es = [e] := by
        split at h
        · cases hae : absEval e.ty true with
          | error x => rw [hae] at h; cases h
          | ok se => rw [hae] at h; exact (ok_inj h).symm
        · exact (ok_inj h).symm
      subst hes
      refine ⟨goodL_one.2 a1, by simp, ?_, fun l => ?_⟩
      · rw [means_cons, means_nil, srcMeans, srcMeans, a2]
      · simp only [cntL, srcCntL]; have := a3 l; omega
  | a :: a2 :: as, tl, ta, brk, dead, es, _, hg, hu, hta, hbrk, h => by
    rw [solveNodes] at h
    rw [SrcGoodL] at hg
    rw [show (fun l => srcCntL l (a :: a2 :: as)) = fun l => srcCnt l a + srcCntL l (a2 :: as) from by funext l; rw [srcCntL]] at hu
    cases ha : solve cs a ta with
    | error x => rw [ha] at h; cases h
    | ok e =>
      rw [ha] at h
      simp only [bind, Except.bind] at h
      obtain ⟨e1, e2, e3⟩ := solve_ok hcs a ta e hg.1 hu.left ha
      rw [hta] at e1
      have stop : Halt k (e.mean I) → es = [e] →
          GoodL I Γ true tl.look es ∧ es ≠ [] ∧ comb k (means I es) = comb k (srcMeans I (a :: a2 :: as)) ∧
          ∀ l, cntL l es ≤ srcCntL l (a :: a2 :: as) := by
        rintro hh rfl
        refine ⟨goodL_one.2 e1.low, by simp, ?_, fun l => ?_⟩
        · rw [means_cons, means_nil, comb_one, srcMeans, ← e2, comb_halt hh]
        · rw [srcCntL]; simp only [cntL]; have := e3 l; omega
      by_cases c1 : (e.ty.isNever && dead) = true
      · rw [if_pos c1] at h
        simp at c1
        exact stop (halt_never e1 c1.1) (ok_inj h).symm
      · rw [if_neg c1] at h
        have go : ∀ fs, solveNodes cs (a2 :: as) tl ta brk dead = .ok fs → es = e :: fs →
            GoodL I Γ true tl.look es ∧ es ≠ [] ∧ comb k (means I es) = comb k (srcMeans I (a :: a2 :: as)) ∧
            ∀ l, cntL l es ≤ srcCntL l (a :: a2 :: as) := by
            rintro fs hr rfl
            obtain ⟨h1, h2, h3, h4⟩ := solveNodes_ok hcs k (a2 :: as) tl ta brk dead fs (by simp) hg.2 hu.right hta hbrk hr
            refine ⟨(goodL_cons h2).2 ⟨e1, h1⟩, by simp, ?_, fun l => ?_⟩
            · rw [means_cons, srcMeans, ← e2]
              exact comb_cons (means_ne h2) (srcMeans_ne (by simp)) h3
            · rw [cntL, srcCntL]
              have := e3 l
              have := h4 l
              omega
        by_cases c2 : brk ≠ .unknown
        · rw [if_pos c2] at h
          cases hae : absEval e.ty false with
          | error x => rw [hae] at h; cases h
          | ok se =>
            rw [hae] at h
            dsimp only at h
            by_cases c3 : se = brk
            · rw [if_pos c3] at h
              subst c3
              have hb := hbrk.resolve_left c2
              subst hb
              exact stop (halt_of e1 hae) (ok_inj h).symm
            · rw [if_neg c3] at h
              cases hr : solveNodes cs (a2 :: as) tl ta brk dead with
              | error x => rw [hr] at h; cases h
              | ok fs => rw [hr] at h; exact go fs hr (ok_inj h).symm
        · rw [if_neg c2] at h
          cases hr : solveNodes cs (a2 :: as) tl ta brk dead with
          | error x => rw [hr] at h; cases h
          | ok fs => rw [hr] at h; exact go fs hr (ok_inj h).symm
end

end

end Verif.Fold
