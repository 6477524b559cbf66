import Verif.FoldCreate
/-! # Checking borrows keeps the meaning of conditionals -/
namespace Verif.Fold

section
variable {S T J : Type} {I : Sem S T J}

/-- A node in place of another. -/
structure Stands (I : Sem S T J) (Γ : List Nat) (look : Bool) (e e' : E) : Prop where
  good : Good I Γ look e'
  mean : e'.mean I = e.mean I
  cnt : ∀ l, cnt l e' ≤ cnt l e
  never : e.ty.isNever = true → e'.ty.isNever = true

theorem below_not {k : Bool} {t : Ty} (h : ¬ t.isNever = true) : below k t = k := by
  unfold below
  simp at h
  simp [h]

theorem Good.lift {Γ : List Nat} {k : Bool} {t : Ty} {e : E} (h : Good I Γ (below k t) e) (hn : t.isNever = true → e.ty.isNever = true) :
    Good I Γ k e := by
  by_cases c : t.isNever = true
  · exact h.never (hn c)
  · rwa [below_not c] at h

theorem absEval_void {t : Ty} (h : absEval t true = .ok .isFalse) : t.aF = true ∨ t.rel = false := by
  unfold absEval at h
  cases h1 : t.aF
  · right
    rw [h1] at h
    cases h2 : t.aT
    · rw [h2] at h
      cases h3 : t.irrelevant
      · simp [h3] at h
      · unfold Ty.irrelevant at h3; simp at h3; exact h3.1
    · simp [h2] at h
  · exact Or.inl rfl

theorem FactsAt.mean {k : Bool} {t : Ty} {x y : M S T J} (h : FactsAt k t x) (e : y = x) : FactsAt k t y := e ▸ h

theorem FactsAt.orFact {k : Bool} {t : Ty} {x : M S T J} (b : Bool) (h : FactsAt k t x)
    (hb : ∀ s s' v, x s = some (s', .val v) → k = true → if b then v.isSome = true else v = none) : FactsAt k (t.orFact b) x := by
  refine ⟨?_, fun s s' v hx => ⟨?_, fun hk => ?_⟩⟩
  · have := h.1
    unfold Ty.orFact
    cases b <;> exact this
  · have := (h.2 s s' v hx).1
    unfold Ty.orFact
    cases b <;> exact this
  · have h1 := (h.2 s s' v hx).2 hk
    have h2 := hb s s' v hx hk
    unfold Ty.orFact
    cases b
    · exact ⟨h1.1, fun _ => h2, h1.2.2⟩
    · refine ⟨fun _ hh => ?_, h1.2.1, h1.2.2⟩
      rw [hh] at h2; cases h2

theorem set_append {α : Type} {a b : List α} {x y : α} {i : Nat} (h : a.length = i) : (a ++ x :: b).set i y = a ++ y :: b := by
  subst h
  simp

theorem Items.set {Γ : List Nat} {look : Bool} {a b : List E} {x x' : E} (h : Items I Γ look (a ++ x :: b))
    (hx : Good I Γ (if b.isEmpty then look else true) x') (hc : ∀ l, Fold.cnt l x' ≤ Fold.cnt l x) : Items I Γ look (a ++ x' :: b) := by
  have h1 := (goodL_append (by simp)).1 h.good
  refine ⟨(goodL_append (by simp)).2 ⟨h1.1, hx, h1.2.2⟩, by simp, h.uniq.mono fun l => ?_⟩
  simp [cntL_append, cntL]
  have := hc l
  omega

theorem Items.at {Γ : List Nat} {look : Bool} {a b : List E} {x : E} (h : Items I Γ look (a ++ x :: b)) :
    Good I Γ (if b.isEmpty then look else true) x := ((goodL_append (by simp)).1 h.good).2.1

/-- `&&` or `||`. -/
def node (isAnd : Bool) (items : List E) (t : Ty) : E := if isAnd then .and items t else .or items t

theorem node_mean (isAnd : Bool) (items : List E) (t : Ty) : (node isAnd items t).mean I = comb isAnd (means I items) := by
  cases isAnd
  · exact mean_or ..
  · exact mean_and ..

theorem node_good {Γ : List Nat} {look isAnd : Bool} {items : List E} {t : Ty} (h : Items I Γ look items) (hn : t.isNever = false)
    (hf : FactsAt look t (comb isAnd (means I items))) : Good I Γ look (node isAnd items t) := by
  cases isAnd
  · exact ⟨hf.mean (mean_or ..), h.good, h.ne, hn⟩
  · exact ⟨hf.mean (mean_and ..), h.good, h.ne, hn⟩

theorem node_cnt (isAnd : Bool) (items : List E) (t : Ty) (l : Nat) : cnt l (node isAnd items t) = cntL l items := by
  cases isAnd <;> rfl

theorem orFact_never (t : Ty) (b : Bool) : (t.orFact b).isNever = t.isNever := by cases b <;> rfl

/-- What is to be shown of the items of a block. -/
structure Items2 (I : Sem S T J) (Γ : List Nat) (look : Bool) (es es' : List E) (dead : Bool) : Prop where
  good : GoodL I Γ false look es'
  ne : es' ≠ []
  mean : M.seqs (means I es') = M.seqs (means I es)
  cnt : ∀ l, cntL l es' ≤ cntL l es
  dead : dead = true → ∀ e ∈ es'.getLast?, e.ty.isNever = true
  never : (∀ e ∈ es.getLast?, e.ty.isNever = true) → ∀ e ∈ es'.getLast?, e.ty.isNever = true

theorem seqs_last_noVal {Γ : List Nat} {look : Bool} {es : List E} (hg : GoodL I Γ false look es) (hne : es ≠ [])
    (hl : ∀ e ∈ es.getLast?, e.ty.isNever = true) (s s' : S) (v : Option T) : M.seqs (means I es) s ≠ some (s', .val v) := by
  induction es generalizing s with
  | nil => exact absurd rfl hne
  | cons e es ih =>
    rw [means_cons]
    cases es with
    | nil =>
      rw [means_nil]
      exact (goodL_one.1 hg).facts.noVal (hl e (by simp)) _ _ _
    | cons f fs =>
      rw [M.seqs_cons (means_ne (by simp))]
      intro hx
      obtain ⟨s1, u, _, h2⟩ := M.bind_val hx
      exact ih ((goodL_cons (by simp)).1 hg).2 (by simp) (fun x hx => hl x (by rw [List.getLast?_cons_cons]; exact hx)) s1 h2

theorem seqs_noVal {x : M S T J} (h : ∀ s s' v, x s ≠ some (s', .val v)) (ys : List (M S T J)) : M.seqs (x :: ys) = x := by
  cases ys with
  | nil => rfl
  | cons y ys =>
    rw [M.seqs_cons (by simp)]
    exact (M.bind_congr fun s s' v hx => absurd hx (h _ _ _)).trans (M.bind_pure x)

theorem Uniq.inner {Γ : List Nat} {l : Option Nat} {es : List E} {t : Ty} (h : Uniq Γ fun i => cnt i (.block l es t)) :
    Uniq (l.toList ++ Γ) fun i => cntL i es := by
  intro i
  have := h i
  simp only [cnt] at this
  show cntL i es ≤ 1 ∧ (i ∈ l.toList ++ Γ → cntL i es = 0)
  refine ⟨by omega, fun hm => ?_⟩
  rcases List.mem_append.1 hm with hm | hm
  · cases l with
    | none => cases hm
    | some j =>
      simp at hm
      subst hm
      have := this.1
      simp at this
      omega
  · have := this.2 hm
    omega

theorem bck_all : ∀ k : Nat,
    (∀ (Γ : List Nat) (look : Bool) (e e' : E), Good I Γ look e → Uniq Γ (fun l => cnt l e) → bck k e = .ok e' → Stands I Γ look e e') ∧
    (∀ (Γ : List Nat) (look isAnd : Bool) (i : Nat) (items : List E) (t : Ty) (e' : E), Items I Γ look items → t.isNever = false →
      FactsAt look t (comb isAnd (means I items)) → bckAndOr k isAnd i items t = .ok e' →
      Good I Γ look e' ∧ e'.mean I = comb isAnd (means I items) ∧ ∀ l, cnt l e' ≤ cntL l items) ∧
    (∀ (Γ : List Nat) (look : Bool) (es es' : List E) (dead : Bool), GoodL I Γ false look es → es ≠ [] → Uniq Γ (fun l => cntL l es) →
      bckBlock k es = .ok (es', dead) → Items2 I Γ look es es' dead) := by
  intro k
  induction k with
  | zero =>
    refine ⟨fun _ _ _ _ _ _ h => ?_, fun _ _ _ _ _ _ _ _ _ _ h => ?_, fun _ _ _ _ _ _ _ _ h => ?_⟩
    · rw [bck] at h; cases h
    · rw [bckAndOr] at h; cases h
    · rw [bckBlock] at h; cases h
  | succ k ih =>
    obtain ⟨ih1, ih2, ih3⟩ := ih
    refine ⟨?_, ?_, ?_⟩
    · -- nodes
      intro Γ look e e' hg hu h
      have same : e' = e → Stands I Γ look e e' := by
        rintro rfl
        exact ⟨hg, rfl, fun _ => Nat.le_refl _, id⟩
      rw [bck.eq_def] at h
      cases e with
      | lit n t => exact same (ok_inj h).symm
      | bool b t => exact same (ok_inj h).symm
      | definit t => exact same (ok_inj h).symm
      | var n t => exact same (ok_inj h).symm
      | leaf n t => exact same (ok_inj h).symm
      | field n a t =>
        dsimp only at h
        cases ha : bck k a with
        | error x => rw [ha] at h; cases h
        | ok a' =>
          rw [ha] at h
          cases ok_inj h
          have st := ih1 Γ true a a' hg.2 (by simpa only [cnt] using hu) ha
          have hm : (E.field n a' t).mean I = (E.field n a t).mean I := by rw [mean_field, mean_field, st.mean]
          exact ⟨⟨hg.1.mean hm, st.good⟩, hm, fun l => by simpa only [cnt] using st.cnt l, id⟩
      | call n p a t =>
        dsimp only at h
        cases ha : bck k a with
        | error x => rw [ha] at h; cases h
        | ok a' =>
          rw [ha] at h
          cases ok_inj h
          have st := ih1 Γ _ a a' hg.2 (by simpa only [cnt] using hu) ha
          have hm : (E.call n p a' t).mean I = (E.call n p a t).mean I := by rw [mean_call, mean_call, st.mean]
          exact ⟨⟨hg.1.mean hm, st.good⟩, hm, fun l => by simpa only [cnt] using st.cnt l, id⟩
      | copy a t =>
        dsimp only at h
        cases ha : bck k a with
        | error x => rw [ha] at h; cases h
        | ok a' =>
          rw [ha] at h
          cases ok_inj h
          have st := ih1 Γ _ a a' hg.2 (by simpa only [cnt] using hu) ha
          have hm : (E.copy a' t).mean I = (E.copy a t).mean I := by rw [mean_copy, mean_copy, st.mean]
          exact ⟨⟨hg.1.mean hm, st.good⟩, hm, fun l => by simpa only [cnt] using st.cnt l, id⟩
      | jump l p a t =>
        dsimp only at h
        cases ha : bck k a with
        | error x => rw [ha] at h; cases h
        | ok a' =>
          rw [ha] at h
          cases ok_inj h
          have st := ih1 Γ _ a a' hg.2.1 (by simpa only [cnt] using hu) ha
          have hm : (E.jump l p a' t).mean I = (E.jump l p a t).mean I := by rw [mean_jump, mean_jump, st.mean]
          exact ⟨⟨hg.1.mean hm, st.good, hg.2.2⟩, hm, fun l => by simpa only [cnt] using st.cnt l, id⟩
      | not a t =>
        dsimp only at h
        cases ha : bck k a with
        | error x => rw [ha] at h; cases h
        | ok a' =>
          rw [ha] at h
          simp only [bind, Except.bind] at h
          have st := ih1 Γ true a a' hg.2 (by simpa only [cnt] using hu) ha
          have hm : ∀ t', (E.not a' t').mean I = (E.not a t).mean I := by intro t'; rw [mean_not, mean_not, st.mean]
          cases hae : absEval a'.ty false with
          | error x => rw [hae] at h; cases h
          | ok se =>
            rw [hae] at h
            have inner : ∀ b, (if b then Fals (a'.mean I) else Tru (a'.mean I)) → Stands I Γ look (.not a t) (.not a' (t.orFact b)) := by
              intro b hb
              refine ⟨⟨(hg.1.orFact b ?_).mean (hm _), st.good⟩, hm _, fun l => by simpa only [cnt] using st.cnt l, fun hn => ?_⟩
              · intro s s' v hx _
                rw [mean_not, ← st.mean] at hx
                obtain ⟨s1, u, h1, h2⟩ := M.bind_val hx
                unfold M.pure at h2
                simp at h2
                obtain ⟨_, rfl⟩ := h2
                cases b
                · have hb : Tru (a'.mean I) := hb
                  rw [if_pos (hb _ _ _ h1)]; rfl
                · have hb : Fals (a'.mean I) := hb
                  rw [hb _ _ _ h1]; rfl
              · exact (orFact_never t b).trans hn
            cases se with
            | unknown =>
              cases ok_inj h
              exact ⟨⟨hg.1.mean (hm _), st.good⟩, hm _, fun l => by simpa only [cnt] using st.cnt l, id⟩
            | isTrue =>
              cases ok_inj h
              exact inner false (st.good.facts.tru (absEval_true hae))
            | isFalse =>
              cases ok_inj h
              exact inner true (st.good.facts.fals (absEval_false hae))
      | ite c a b t =>
        dsimp only at h
        simp only [cnt] at hu
        have hnv := hg.2.2.2.2
        cases hc : bck k c with
        | error x => rw [hc] at h; cases h
        | ok c' =>
          rw [hc] at h
          simp only [bind, Except.bind] at h
          have sc := ih1 Γ true c c' hg.2.1 hu.left.left hc
          cases hae : absEval c'.ty false with
          | error x => rw [hae] at h; cases h
          | ok se =>
            rw [hae] at h
            cases se with
            | isTrue =>
              dsimp only at h
              cases ha : bck k a with
              | error x => rw [ha] at h; cases h
              | ok a' =>
                rw [ha] at h
                cases ok_inj h
                have sa := ih1 Γ _ a a' hg.2.2.1 hu.left.right ha
                have hua : Uniq Γ fun l => cnt l a' := hu.left.right.mono sa.cnt
                have hn : t.isNever = true → (createBlock c' a').ty.isNever = true := by
                  intro hh; rw [createBlock_ty]; exact sa.never (hnv hh).1
                refine ⟨(createBlock_good sc.good sa.good hua).lift hn, ?_, fun l => ?_, hn⟩
                · rw [createBlock_mean sc.good sa.good hua, mean_ite, ← sc.mean, ← sa.mean]
                  refine M.bind_congr fun s s' v hx => ?_
                  rw [if_pos (sc.good.facts.tru (absEval_true hae) _ _ _ hx)]
                · have := cnt_createBlock l c' a'
                  have := sc.cnt l
                  have := sa.cnt l
                  rw [cnt]
                  omega
            | isFalse =>
              dsimp only at h
              cases hb : bck k b with
              | error x => rw [hb] at h; cases h
              | ok b' =>
                rw [hb] at h
                cases ok_inj h
                have sb := ih1 Γ _ b b' hg.2.2.2.1 hu.right hb
                have hub : Uniq Γ fun l => cnt l b' := hu.right.mono sb.cnt
                have hn : t.isNever = true → (createBlock c' b').ty.isNever = true := by
                  intro hh; rw [createBlock_ty]; exact sb.never (hnv hh).2
                refine ⟨(createBlock_good sc.good sb.good hub).lift hn, ?_, fun l => ?_, hn⟩
                · rw [createBlock_mean sc.good sb.good hub, mean_ite, ← sc.mean, ← sb.mean]
                  refine M.bind_congr fun s s' v hx => ?_
                  rw [sc.good.facts.fals (absEval_false hae) _ _ _ hx]; rfl
                · have := cnt_createBlock l c' b'
                  have := sc.cnt l
                  have := sb.cnt l
                  rw [cnt]
                  omega
            | unknown =>
              dsimp only at h
              cases ha : bck k a with
              | error x => rw [ha] at h; cases h
              | ok a' =>
                cases hb : bck k b with
                | error x => rw [ha, hb] at h; cases h
                | ok b' =>
                  rw [ha, hb] at h
                  cases ok_inj h
                  have sa := ih1 Γ _ a a' hg.2.2.1 hu.left.right ha
                  have sb := ih1 Γ _ b b' hg.2.2.2.1 hu.right hb
                  have hm : (E.ite c' a' b' t).mean I = (E.ite c a b t).mean I := by rw [mean_ite, mean_ite, sc.mean, sa.mean, sb.mean]
                  refine ⟨⟨hg.1.mean hm, sc.good, sa.good, sb.good, fun hh => ⟨sa.never (hnv hh).1, sb.never (hnv hh).2⟩⟩, hm, fun l => ?_, id⟩
                  simp only [cnt]
                  have := sc.cnt l
                  have := sa.cnt l
                  have := sb.cnt l
                  omega
      | and es t =>
        dsimp only at h
        obtain ⟨r1, r2, r3⟩ := ih2 Γ look true 0 es t e' ⟨hg.2.1, hg.2.2.1, by simpa only [cnt] using hu⟩ hg.2.2.2
          (hg.1.mean (mean_and ..).symm) h
        refine ⟨r1, r2.trans (mean_and ..).symm, fun l => by rw [cnt]; exact r3 l, fun hh => ?_⟩
        have := hg.2.2.2
        have hh : t.isNever = true := hh
        rw [hh] at this; cases this
      | or es t =>
        dsimp only at h
        obtain ⟨r1, r2, r3⟩ := ih2 Γ look false 0 es t e' ⟨hg.2.1, hg.2.2.1, by simpa only [cnt] using hu⟩ hg.2.2.2
          (hg.1.mean (mean_or ..).symm) h
        refine ⟨r1, r2.trans (mean_or ..).symm, fun l => by rw [cnt]; exact r3 l, fun hh => ?_⟩
        have := hg.2.2.2
        have hh : t.isNever = true := hh
        rw [hh] at this; cases this
      | block l es t =>
        dsimp only at h
        cases hb : bckBlock k es with
        | error x => rw [hb] at h; cases h
        | ok r =>
          obtain ⟨es', dead⟩ := r
          rw [hb] at h
          cases ok_inj h
          have st := ih3 _ _ es es' dead hg.2.1 hg.2.2.1 hu.inner hb
          have hm : ∀ t', (E.block l es' t').mean I = (E.block l es t).mean I := by intro t'; rw [mean_block, mean_block, st.mean]
          have hc : ∀ t' i, cnt i (.block l es' t') ≤ cnt i (.block l es t) := by
            intro t' i
            simp only [cnt]
            have := st.cnt i
            omega
          by_cases c : (dead && l.isNone) = true
          · rw [if_pos c]
            simp at c
            obtain ⟨hd, rfl⟩ := c
            have hlast := st.dead hd
            refine ⟨⟨⟨(by intro hh; cases hh), fun s s' v hx => ?_⟩, ?_, st.ne, fun _ => hlast⟩, hm _, hc _, fun _ => rfl⟩
            · rw [mean_block, M.catch_none] at hx
              exact absurd hx (seqs_last_noVal st.good st.ne hlast _ _ _)
            · exact st.good.mono (fun _ hx => hx) id (by intro hh; simp [below, tNever, Ty.isNever] at hh)
          · rw [if_neg c]
            exact ⟨⟨hg.1.mean (hm _), st.good, st.ne, fun hh => st.never (hg.2.2.2 hh)⟩, hm _, hc _, id⟩
    · -- operands
      intro Γ look isAnd i items t e' hi hn hf h
      rw [bckAndOr.eq_def] at h
      dsimp only at h
      cases hx : items[i]? with
      | none =>
        rw [hx] at h
        dsimp only at h
        have fin : ∀ e', e' = node isAnd items t → Good I Γ look e' ∧ e'.mean I = comb isAnd (means I items) ∧ ∀ l, cnt l e' ≤ cntL l items := by
          rintro _ rfl
          exact ⟨node_good hi hn hf, node_mean .., fun l => by rw [node_cnt]; exact Nat.le_refl _⟩
        cases items with
        | nil => exact absurd rfl hi.ne
        | cons x xs =>
          cases xs with
          | nil =>
            cases ok_inj h
            refine ⟨goodL_one.1 hi.good, ?_, fun l => by simp [cntL]⟩
            rw [means_cons, means_nil, comb_one]
          | cons y ys => exact fin _ (ok_inj h).symm
      | some x =>
        rw [hx] at h
        dsimp only at h
        obtain ⟨a, b, rfl, hal⟩ := split_at hx
        cases hb : bck k x with
        | error y => rw [hb] at h; cases h
        | ok x' =>
          rw [hb] at h
          simp only [bind, Except.bind] at h
          have st := ih1 Γ _ x x' hi.at (hi.uniq.mono fun l => cnt_le_cntL (by simp)) hb
          rw [set_append hal] at h
          have hi' := hi.set st.good st.cnt
          have hmm : means I (a ++ x' :: b) = means I (a ++ x :: b) := by
            rw [means_append, means_append, means_cons, means_cons, st.mean]
          have hcc : ∀ l, cntL l (a ++ x' :: b) ≤ cntL l (a ++ x :: b) := by
            intro l
            simp [cntL_append, cntL]
            have := st.cnt l
            omega
          have hf' := hf
          rw [← hmm] at hf' ⊢
          cases hae : absEval x'.ty (i == (a ++ x' :: b).length - 1) with
          | error y => rw [hae] at h; cases h
          | ok ae =>
            rw [hae] at h
            dsimp only at h
            have next : bckAndOr k isAnd (i + 1) (a ++ x' :: b) t = .ok e' →
                Good I Γ look e' ∧ e'.mean I = comb isAnd (means I (a ++ x' :: b)) ∧ ∀ l, cnt l e' ≤ cntL l (a ++ x :: b) := by
              intro hh
              obtain ⟨r1, r2, r3⟩ := ih2 Γ look isAnd (i + 1) _ t e' hi' hn hf' hh
              exact ⟨r1, r2, fun l => Nat.le_trans (r3 l) (hcc l)⟩
            by_cases c1 : ae = .unknown
            · rw [if_pos c1] at h
              exact next h
            rw [if_neg c1] at h
            by_cases c2 : (isAnd == (ae == .isFalse)) = true
            · -- nothing after it is run
              rw [if_pos c2] at h
              have htake : (a ++ x' :: b).take (i + 1) = a ++ [x'] := by
                rw [← hal, show a ++ x' :: b = (a ++ [x']) ++ b by simp, List.take_left' (by simp)]
              rw [htake] at h
              have hae2 : ae = haltSE isAnd := by
                cases isAnd <;> cases ae <;> first | rfl | exact absurd rfl c1 | (exfalso; revert c2; decide)
              -- it is falsy in `&&`, truthy in `||`
              have hhalt : look = true ∨ b ≠ [] → Halt isAnd (x'.mean I) := by
                intro hor
                have hgt : Good I Γ true x' := by
                  rcases hor with hl | hb
                  · have := st.good
                    rw [hl] at this
                    cases b <;> exact this
                  · have := st.good
                    cases b with
                    | nil => exact absurd rfl hb
                    | cons y ys => exact this
                rw [hae2] at hae
                generalize (i == (a ++ x' :: b).length - 1) = vo at hae
                cases vo
                · exact halt_of hgt hae
                · cases isAnd
                  · exact hgt.facts.tru (absEval_true hae)
                  · intro s s' v hv
                    have := (hgt.facts.2 _ _ _ hv).2 rfl
                    rcases absEval_void hae with h1 | h1
                    · exact this.2.1 h1
                    · exact this.2.2.2 h1
              have hcomb : comb isAnd (means I (a ++ [x'])) = comb isAnd (means I (a ++ x' :: b)) := by
                cases b with
                | nil => rfl
                | cons y ys =>
                  rw [means_append, means_append, means_cons, means_cons, means_nil]
                  exact (comb_cut (hhalt (Or.inr (by simp)))).symm
              have hi2 := hi'.take
              have hc2 : ∀ l, cntL l (a ++ [x']) ≤ cntL l (a ++ x :: b) := by
                intro l
                refine Nat.le_trans ?_ (hcc l)
                simp [cntL_append, cntL]
              have fin : ∀ e', e' = node isAnd (a ++ [x']) (t.orFact (!isAnd)) →
                  Good I Γ look e' ∧ e'.mean I = comb isAnd (means I (a ++ x' :: b)) ∧ ∀ l, cnt l e' ≤ cntL l (a ++ x :: b) := by
                rintro _ rfl
                refine ⟨node_good hi2 ((orFact_never ..).trans hn) ?_, (node_mean ..).trans hcomb, fun l => by rw [node_cnt]; exact hc2 l⟩
                rw [hcomb]
                refine hf'.orFact _ fun s s' v hv hl => ?_
                rw [← hcomb, means_append, means_cons, means_nil] at hv
                have hh := hhalt (Or.inl hl)
                cases isAnd
                · have hv : M.or _ s = _ := hv
                  show v.isSome = true
                  rcases or_val hv with ⟨h1, _⟩ | ⟨s1, s2, h1⟩
                  · exact h1
                  · exact hh _ _ _ h1
                · have hv : M.and _ s = _ := hv
                  show v = none
                  rcases and_val hv with ⟨h1, _⟩ | ⟨s1, s2, h1⟩
                  · exact h1
                  · exact hh _ _ _ h1
              cases a with
              | nil =>
                cases ok_inj h
                refine ⟨goodL_one.1 hi2.good, ?_, fun l => ?_⟩
                · rw [← hcomb]
                  rw [List.nil_append, means_cons, means_nil, comb_one]
                · have := hc2 l
                  simpa [cntL] using this
              | cons z zs =>
                refine fin e' ?_
                have h2 : (Except.ok (node isAnd (z :: zs ++ [x']) (t.orFact (!isAnd))) : X E) = .ok e' := by
                  rw [← h]
                  cases zs <;> cases isAnd <;> rfl
                exact (ok_inj h2).symm
            rw [if_neg c2] at h
            by_cases c3 : i + 1 < (a ++ x' :: b).length
            · rw [if_pos c3] at h
              obtain ⟨q, b', rfl⟩ : ∃ q b', b = q :: b' := by
                cases b with
                | nil => exfalso; simp [hal] at c3
                | cons q b' => exact ⟨q, b', rfl⟩
              have hmg : mergeAt (a ++ x' :: q :: b') i = .ok (a ++ createBlock x' q :: b') := by
                unfold mergeAt
                rw [← hal, List.drop_left, List.take_left]
              rw [hmg] at h
              dsimp only at h
              have hvo : (i == (a ++ x' :: q :: b').length - 1) = false := by
                simp [hal]
              rw [hvo] at hae
              have hae2 : ae = passSE isAnd := by
                cases isAnd <;> cases ae <;> first | rfl | exact absurd rfl c1 | (exfalso; revert c2; decide)
              rw [hae2] at hae
              have hp := pass_of (hi'.mid (by simp)) hae
              obtain ⟨m1, m2⟩ := hi'.merge
              have hcomb : comb isAnd (means I (a ++ createBlock x' q :: b')) = comb isAnd (means I (a ++ x' :: q :: b')) := by
                simp only [means_append, means_cons]
                rw [comb_append isAnd _ (x'.mean I :: _) (by simp), comb_append isAnd _ ((createBlock x' q).mean I :: _) (by simp),
                  comb_pass hp, m2]
              have hf2 := hf'
              rw [← hcomb] at hf2
              obtain ⟨r1, r2, r3⟩ := ih2 Γ look isAnd i _ t e' m1 hn hf2 h
              refine ⟨r1, r2.trans hcomb, fun l => Nat.le_trans (r3 l) (Nat.le_trans ?_ (hcc l))⟩
              have := cnt_createBlock l x' q
              simp [cntL_append, cntL]
              omega
            · rw [if_neg c3] at h
              exact next h
    · -- items of a block
      intro Γ look es es' dead hg hne hu h
      cases es with
      | nil => exact absurd rfl hne
      | cons x xs =>
        rw [bckBlock] at h
        simp only [cntL] at hu
        cases hb : bck k x with
        | error y => rw [hb] at h; cases h
        | ok x' =>
          rw [hb] at h
          simp only [bind, Except.bind] at h
          have st := ih1 Γ _ x x' hg.1 hu.left hb
          by_cases c : x'.ty.isNever = true
          · rw [if_pos c] at h
            cases ok_inj h
            refine ⟨goodL_one.2 (st.good.never c), by simp, ?_, fun l => ?_, fun _ e he => ?_, fun _ e he => ?_⟩
            · rw [means_cons, means_cons, means_nil, ← st.mean]
              exact (seqs_noVal (fun s s' v => st.good.facts.noVal c s s' v) _).symm
            · simp only [cntL]; have := st.cnt l; omega
            · simp at he; subst he; exact c
            · simp at he; subst he; exact c
          · rw [if_neg c] at h
            cases xs with
            | nil =>
              cases k with
              | zero => rw [bck] at hb; cases hb
              | succ k =>
                rw [bckBlock] at h
                cases ok_inj h
                refine ⟨goodL_one.2 st.good, by simp, ?_, fun l => ?_, fun hh => by (cases hh), fun hh e he => ?_⟩
                · rw [means_cons, means_cons, st.mean]
                · simp only [cntL]; have := st.cnt l; omega
                · simp at he; subst he
                  exact absurd (st.never (hh x (by simp))) c
            | cons y ys =>
              cases hr : bckBlock k (y :: ys) with
              | error z => rw [hr] at h; cases h
              | ok r =>
                obtain ⟨ys', d⟩ := r
                rw [hr] at h
                cases ok_inj h
                have s2 := ih3 Γ look (y :: ys) ys' d hg.2 (by simp) hu.right hr
                have hgl : ∀ e, e ∈ (x' :: ys').getLast? → e ∈ ys'.getLast? := by
                  intro e he
                  cases hys : ys' with
                  | nil => exact absurd hys s2.ne
                  | cons a as => rw [hys, List.getLast?_cons_cons] at he; exact he
                refine ⟨(goodL_cons s2.ne).2 ⟨st.good, s2.good⟩, by simp, ?_, fun l => ?_, fun hd e he => s2.dead hd e (hgl e he), fun hh e he => ?_⟩
                · rw [means_cons, means_cons, M.seqs_cons (means_ne s2.ne), M.seqs_cons (means_ne (by simp)), st.mean, s2.mean]
                · have := st.cnt l; have := s2.cnt l; rw [cntL, cntL]; exact Nat.add_le_add (st.cnt l) (s2.cnt l)
                · exact s2.never (fun f hf => hh f (by rw [List.getLast?_cons_cons]; exact hf)) e (hgl e he)

end

end Verif.Fold
