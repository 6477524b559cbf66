import Verif.FoldBck
/-! # Inlining keeps the meaning of conditionals -/
namespace Verif.Fold

section
variable {S T J : Type} {I : Sem S T J}

/-- What an expression that refers to a local of the function becomes means the same, and its types are as true. -/
structure RhoOk (I : Sem S T J) (ρ : Nat → Ty → E) : Prop where
  good : ∀ n t look, FactsAt look t ((E.leaf n t).mean I) → Good I [] look (ρ n t)
  mean : ∀ n t, (ρ n t).mean I = (E.leaf n t).mean I
  never : ∀ n t, t.isNever = true → (ρ n t).ty.isNever = true
  cnt : ∀ n t l, Fold.cnt l (ρ n t) = 0

theorem bind_noVal {x : M S T J} (h : ∀ s s' v, x s ≠ some (s', .val v)) (f : Option T → M S T J) : x.bind f = x :=
  (M.bind_congr fun s s' v hx => absurd hx (h _ _ _)).trans (M.bind_pure x)

theorem slot_noVal {x : M S T J} (h : ∀ s s' v, x s ≠ some (s', .val v)) (p : Ty) : slot I p x = x := by
  unfold slot discard M.seq asB
  split
  · exact bind_noVal h _
  · split
    · exact bind_noVal h _
    · rfl

theorem noVal_facts {x : M S T J} (h : ∀ s s' v, x s ≠ some (s', .val v)) {k : Bool} {t : Ty} (hw : WfTy t) : FactsAt k t x :=
  ⟨hw, fun s s' v hx => absurd hx (h _ _ _)⟩

variable {ρ : Nat → Ty → E}

mutual
theorem inl_ok (hρ : RhoOk I ρ) : ∀ (e : E) (Γ : List Nat) (look : Bool) (e' : E), Good I Γ look e → inl ρ e = .ok e' → Stands I Γ look e e'
  | .leaf n t, Γ, look, e', hg, h => by
    rw [inl] at h
    cases ok_inj h
    exact ⟨(hρ.good n t look hg).mono (by intro x hx; cases hx) id, hρ.mean n t, fun l => by rw [hρ.cnt]; exact Nat.zero_le _, hρ.never n t⟩
  | .lit n t, Γ, look, e', hg, h => by
    rw [inl.eq_def] at h
    cases ok_inj h
    exact ⟨hg, rfl, fun _ => Nat.le_refl _, id⟩
  | .bool n t, Γ, look, e', hg, h => by
    rw [inl.eq_def] at h
    cases ok_inj h
    exact ⟨hg, rfl, fun _ => Nat.le_refl _, id⟩
  | .definit t, Γ, look, e', hg, h => by
    rw [inl.eq_def] at h
    cases ok_inj h
    exact ⟨hg, rfl, fun _ => Nat.le_refl _, id⟩
  | .var n t, Γ, look, e', hg, h => by
    rw [inl.eq_def] at h
    cases ok_inj h
    exact ⟨hg, rfl, fun _ => Nat.le_refl _, id⟩
  | .field n a t, Γ, look, e', hg, h => by
    rw [inl] at h
    cases ha : inl ρ a with
    | error x => rw [ha] at h; cases h
    | ok a' =>
      rw [ha] at h
      cases ok_inj h
      have st := inl_ok hρ a Γ true a' hg.2 ha
      have hm : (E.field n a' t).mean I = (E.field n a t).mean I := by rw [mean_field, mean_field, st.mean]
      exact ⟨⟨hg.1.mean hm, st.good⟩, hm, fun l => by simpa only [cnt] using st.cnt l, id⟩
  | .call n p a t, Γ, look, e', hg, h => by
    rw [inl] at h
    cases ha : inl ρ a with
    | error x => rw [ha] at h; cases h
    | ok a' =>
      rw [ha] at h
      simp only [bind, Except.bind] at h
      have st := inl_ok hρ a Γ p.look a' hg.2 ha
      by_cases c : a'.ty.isNever = true
      · rw [if_pos c] at h
        cases ok_inj h
        have hnv : ∀ s s' v, a'.mean I s ≠ some (s', .val v) := fun s s' v => st.good.facts.noVal c s s' v
        have hm : (E.block none [a'] tNever).mean I = a'.mean I := by
          rw [mean_block, means_cons, means_nil, M.catch_none]; rfl
        refine ⟨⟨?_, goodL_one.2 (st.good.never c), by simp, ?_⟩, ?_, fun l => ?_, fun _ => rfl⟩
        · rw [hm]; exact noVal_facts hnv (by intro hh; cases hh)
        · intro _ e he; simp at he; subst he; exact c
        · rw [hm, mean_call, ← st.mean, slot_noVal hnv, bind_noVal hnv]
        · simp only [cnt, cntL]; have := st.cnt l; simp; omega
      · rw [if_neg c] at h
        cases ok_inj h
        have hm : (E.call n p a' t).mean I = (E.call n p a t).mean I := by rw [mean_call, mean_call, st.mean]
        exact ⟨⟨hg.1.mean hm, st.good⟩, hm, fun l => by simpa only [cnt] using st.cnt l, id⟩
  | .copy a t, Γ, look, e', hg, h => by
    rw [inl] at h
    cases ha : inl ρ a with
    | error x => rw [ha] at h; cases h
    | ok a' =>
      rw [ha] at h
      cases ok_inj h
      have st := inl_ok hρ a Γ _ a' hg.2 ha
      have hm : (E.copy a' t).mean I = (E.copy a t).mean I := by rw [mean_copy, mean_copy, st.mean]
      exact ⟨⟨hg.1.mean hm, st.good⟩, hm, fun l => by simpa only [cnt] using st.cnt l, id⟩
  | .jump l p a t, Γ, look, e', hg, h => by
    rw [inl] at h
    cases ha : inl ρ a with
    | error x => rw [ha] at h; cases h
    | ok a' =>
      rw [ha] at h
      cases ok_inj h
      have st := inl_ok hρ a Γ _ a' hg.2.1 ha
      have hm : (E.jump l p a' t).mean I = (E.jump l p a t).mean I := by rw [mean_jump, mean_jump, st.mean]
      exact ⟨⟨hg.1.mean hm, st.good, hg.2.2⟩, hm, fun l => by simpa only [cnt] using st.cnt l, id⟩
  | .not a t, Γ, look, e', hg, h => by
    rw [inl] at h
    cases ha : inl ρ a with
    | error x => rw [ha] at h; cases h
    | ok a' =>
      rw [ha] at h
      simp only [bind, Except.bind] at h
      have st := inl_ok hρ a Γ true a' hg.2 ha
      by_cases c : a'.ty.isNever = true
      · rw [if_pos c] at h
        cases ok_inj h
        refine ⟨st.good.never c, ?_, fun l => by simpa only [cnt] using st.cnt l, fun _ => c⟩
        rw [mean_not, ← st.mean]
        exact (bind_noVal (fun s s' v => st.good.facts.noVal c s s' v) _).symm
      · rw [if_neg c] at h
        cases ok_inj h
        have hm : (E.not a' t).mean I = (E.not a t).mean I := by rw [mean_not, mean_not, st.mean]
        exact ⟨⟨hg.1.mean hm, st.good⟩, hm, fun l => by simpa only [cnt] using st.cnt l, id⟩
  | .ite c a b t, Γ, look, e', hg, h => by
    rw [inl] at h
    have hnv := hg.2.2.2.2
    cases hc : inl ρ c with
    | error x => rw [hc] at h; cases h
    | ok c' =>
      rw [hc] at h
      simp only [bind, Except.bind] at h
      have sc := inl_ok hρ c Γ true c' hg.2.1 hc
      cases hae : absEval c'.ty false with
      | error x => rw [hae] at h; cases h
      | ok se =>
        rw [hae] at h
        cases se with
        | isTrue =>
          dsimp only at h
          cases ha : inl ρ a with
          | error x => rw [ha] at h; cases h
          | ok a' =>
            rw [ha] at h
            cases ok_inj h
            have sa := inl_ok hρ a Γ _ a' hg.2.2.1 ha
            have hm : (E.block none [c', a'] t).mean I = (E.ite c a b t).mean I := by
              rw [mean_block, means_cons, means_cons, means_nil, M.catch_none, mean_ite, ← sc.mean, ← sa.mean]
              refine M.bind_congr fun s s' v hx => ?_
              rw [if_pos (sc.good.facts.tru (absEval_true hae) _ _ _ hx)]; rfl
            refine ⟨⟨hg.1.mean hm, (goodL_cons (by simp)).2 ⟨sc.good.eff, goodL_one.2 sa.good⟩, by simp, ?_⟩, hm, fun l => ?_, id⟩
            · intro hh e he; simp at he; subst he; exact sa.never (hnv hh).1
            · simp only [cnt, cntL]; have := sc.cnt l; have := sa.cnt l; simp; omega
        | isFalse =>
          dsimp only at h
          cases hb : inl ρ b with
          | error x => rw [hb] at h; cases h
          | ok b' =>
            rw [hb] at h
            cases ok_inj h
            have sb := inl_ok hρ b Γ _ b' hg.2.2.2.1 hb
            have hm : (E.block none [c', b'] t).mean I = (E.ite c a b t).mean I := by
              rw [mean_block, means_cons, means_cons, means_nil, M.catch_none, mean_ite, ← sc.mean, ← sb.mean]
              refine M.bind_congr fun s s' v hx => ?_
              rw [sc.good.facts.fals (absEval_false hae) _ _ _ hx]; rfl
            refine ⟨⟨hg.1.mean hm, (goodL_cons (by simp)).2 ⟨sc.good.eff, goodL_one.2 sb.good⟩, by simp, ?_⟩, hm, fun l => ?_, id⟩
            · intro hh e he; simp at he; subst he; exact sb.never (hnv hh).2
            · simp only [cnt, cntL]; have := sc.cnt l; have := sb.cnt l; simp; omega
        | unknown =>
          dsimp only at h
          cases ha : inl ρ a with
          | error x => rw [ha] at h; cases h
          | ok a' =>
            cases hb : inl ρ b with
            | error x => rw [ha, hb] at h; cases h
            | ok b' =>
              rw [ha, hb] at h
              cases ok_inj h
              have sa := inl_ok hρ a Γ _ a' hg.2.2.1 ha
              have sb := inl_ok hρ b Γ _ b' hg.2.2.2.1 hb
              have hm : (E.ite c' a' b' t).mean I = (E.ite c a b t).mean I := by rw [mean_ite, mean_ite, sc.mean, sa.mean, sb.mean]
              refine ⟨⟨hg.1.mean hm, sc.good, sa.good, sb.good, fun hh => ⟨sa.never (hnv hh).1, sb.never (hnv hh).2⟩⟩, hm, fun l => ?_, id⟩
              simp only [cnt]
              have := sc.cnt l
              have := sa.cnt l
              have := sb.cnt l
              omega
  | .and es t, Γ, look, e', hg, h => by
    rw [inl] at h
    obtain ⟨r1, r2, r3⟩ := inlConds_ok hρ true es [] Γ look t e' hg.2.1 (fun e he => by cases he) hg.2.2.1 hg.2.2.2
      (hg.1.mean (mean_and ..).symm) h
    refine ⟨r1, r2.trans (mean_and ..).symm, fun l => by rw [cnt]; simpa [cntL] using r3 l, fun hh => ?_⟩
    have := hg.2.2.2
    have hh : t.isNever = true := hh
    rw [hh] at this; cases this
  | .or es t, Γ, look, e', hg, h => by
    rw [inl] at h
    obtain ⟨r1, r2, r3⟩ := inlConds_ok hρ false es [] Γ look t e' hg.2.1 (fun e he => by cases he) hg.2.2.1 hg.2.2.2
      (hg.1.mean (mean_or ..).symm) h
    refine ⟨r1, r2.trans (mean_or ..).symm, fun l => by rw [cnt]; simpa [cntL] using r3 l, fun hh => ?_⟩
    have := hg.2.2.2
    have hh : t.isNever = true := hh
    rw [hh] at this; cases this
  | .block l es t, Γ, look, e', hg, h => by
    rw [inl] at h
    cases hb : inlBlock ρ es with
    | error x => rw [hb] at h; cases h
    | ok es' =>
      rw [hb] at h
      cases ok_inj h
      have st := inlBlock_ok hρ es _ _ es' hg.2.1 hg.2.2.1 hb
      have hm : (E.block l es' t).mean I = (E.block l es t).mean I := by rw [mean_block, mean_block, st.mean]
      refine ⟨⟨hg.1.mean hm, st.good, st.ne, fun hh => st.never (hg.2.2.2 hh)⟩, hm, fun i => ?_, id⟩
      simp only [cnt]
      have := st.cnt i
      omega

theorem inlConds_ok (hρ : RhoOk I ρ) (isAnd : Bool) : ∀ (es done : List E) (Γ : List Nat) (look : Bool) (t : Ty) (e' : E),
    GoodL I Γ true look es → (∀ e ∈ done, Good I Γ true e) → es ≠ [] → t.isNever = false →
    FactsAt look t (comb isAnd (means I (done ++ es))) → inlConds ρ isAnd done es t = .ok e' →
    Good I Γ look e' ∧ e'.mean I = comb isAnd (means I (done ++ es)) ∧ ∀ l, cnt l e' ≤ cntL l done + cntL l es
  | [], _, _, _, _, _, _, _, hne, _, _, _ => absurd rfl hne
  | [x], done, Γ, look, t, e', hg, hd, _, hn, hf, h => by
    rw [inlConds] at h
    cases hx : inl ρ x with
    | error y => rw [hx] at h; cases h
    | ok x' =>
      rw [hx] at h
      have he : e' = node isAnd (done ++ [x']) t := (ok_inj h).symm
      subst he
      have st := inl_ok hρ x Γ look x' (goodL_one.1 hg) hx
      have hmm : means I (done ++ [x']) = means I (done ++ [x]) := by
        rw [means_append, means_append, means_cons, means_cons, st.mean]
      refine ⟨?_, ?_, fun l => ?_⟩
      · have hgl := (goodL_append (I := I) (Γ := Γ) (k := true) (kl := look) (es := done) (fs := [x']) (by simp)).2
          ⟨goodL_mem.2 hd, goodL_one.2 st.good⟩
        rw [← hmm] at hf
        cases isAnd
        · exact ⟨hf.mean (mean_or ..), hgl, by simp, hn⟩
        · exact ⟨hf.mean (mean_and ..), hgl, by simp, hn⟩
      · rw [node_mean, hmm]
      · rw [node_cnt, cntL_append]
        simp only [cntL]
        have := st.cnt l
        omega
  | x :: y :: ys, done, Γ, look, t, e', hg, hd, _, hn, hf, h => by
    rw [inlConds] at h
    cases hx : inl ρ x with
    | error y => rw [hx] at h; cases h
    | ok x' =>
      rw [hx] at h
      simp only [bind, Except.bind] at h
      have hg2 := (goodL_cons (by simp)).1 hg
      have st := inl_ok hρ x Γ true x' hg2.1 hx
      have hmm : means I (done ++ x' :: y :: ys) = means I (done ++ x :: y :: ys) := by
        rw [means_append, means_append, means_cons (e := x'), means_cons (e := x), st.mean]
      cases hae : absEval x'.ty false with
      | error z => rw [hae] at h; cases h
      | ok ae =>
        rw [hae] at h
        dsimp only at h
        by_cases c : ae = .isTrue ∧ isAnd = false ∨ ae = .isFalse ∧ isAnd = true
        · rw [if_pos c] at h
          have hh : Halt isAnd (x'.mean I) := by
            rcases c with ⟨rfl, rfl⟩ | ⟨rfl, rfl⟩
            · exact halt_of (k := false) st.good hae
            · exact halt_of (k := true) st.good hae
          have hcomb : comb isAnd (means I (done ++ [x'])) = comb isAnd (means I (done ++ x :: y :: ys)) := by
            rw [← hmm, means_append, means_append, means_cons, means_cons, means_nil]
            exact (comb_cut hh).symm
          have hcnt : ∀ l, cnt l x' ≤ cntL l (x :: y :: ys) := by
            intro l
            rw [cntL]
            have := st.cnt l
            omega
          by_cases c2 : done.isEmpty = true
          · rw [if_pos c2] at h
            cases ok_inj h
            have : done = [] := by simpa using c2
            subst this
            refine ⟨st.good.low, ?_, fun l => by simpa [cntL] using hcnt l⟩
            rw [← hcomb, List.nil_append, means_cons, means_nil, comb_one]
          · rw [if_neg c2] at h
            have he : e' = node isAnd (done ++ [x']) t := (ok_inj h).symm
            subst he
            refine ⟨?_, ?_, fun l => ?_⟩
            · have hgl := (goodL_append (I := I) (Γ := Γ) (k := true) (kl := look) (es := done) (fs := [x']) (by simp)).2
                ⟨goodL_mem.2 hd, goodL_one.2 st.good.low⟩
              rw [← hcomb] at hf
              cases isAnd
              · exact ⟨hf.mean (mean_or ..), hgl, by simp, hn⟩
              · exact ⟨hf.mean (mean_and ..), hgl, by simp, hn⟩
            · rw [node_mean, hcomb]
            · rw [node_cnt, cntL_append]
              have := hcnt l
              simp only [cntL] at this ⊢
              omega
        · rw [if_neg c] at h
          obtain ⟨r1, r2, r3⟩ := inlConds_ok hρ isAnd (y :: ys) (done ++ [x']) Γ look t e' hg2.2 (by
            intro e he
            rcases List.mem_append.1 he with he | he
            · exact hd e he
            · simp at he; subst he; exact st.good) (by simp) hn (by
            rw [List.append_assoc, List.singleton_append, hmm]; exact hf) h
          refine ⟨r1, ?_, fun l => ?_⟩
          · rw [r2, List.append_assoc, List.singleton_append, hmm]
          · have := r3 l
            rw [cntL_append] at this
            simp only [cntL] at this ⊢
            have := st.cnt l
            omega

theorem inlBlock_ok (hρ : RhoOk I ρ) : ∀ (es : List E) (Γ : List Nat) (look : Bool) (es' : List E), GoodL I Γ false look es → es ≠ [] →
    inlBlock ρ es = .ok es' → Items2 I Γ look es es' false
  | [], _, _, _, _, hne, _ => absurd rfl hne
  | x :: xs, Γ, look, es', hg, _, h => by
    rw [inlBlock] at h
    cases hb : inl ρ x with
    | error y => rw [hb] at h; cases h
    | ok x' =>
      rw [hb] at h
      simp only [bind, Except.bind] at h
      have st := inl_ok hρ x Γ _ x' hg.1 hb
      by_cases c : x'.ty.isNever = true
      · rw [if_pos c] at h
        cases ok_inj h
        refine ⟨goodL_one.2 (st.good.never c), by simp, ?_, fun l => ?_, fun _ e he => ?_, fun _ e he => ?_⟩
        · rw [means_cons, means_cons, means_nil, ← st.mean]
          exact (seqs_noVal (fun s s' v => st.good.facts.noVal c s s' v) _).symm
        · simp only [cntL]; have := st.cnt l; omega
        · simp at he; subst he; exact c
        · simp at he; subst he; exact c
      · rw [if_neg c] at h
        cases xs with
        | nil =>
          rw [inlBlock] at h
          cases ok_inj h
          refine ⟨goodL_one.2 st.good, by simp, ?_, fun l => ?_, fun hh => by (cases hh), fun hh e he => ?_⟩
          · rw [means_cons, means_cons, st.mean]
          · simp only [cntL]; have := st.cnt l; omega
          · simp at he; subst he
            exact absurd (st.never (hh x (by simp))) c
        | cons y ys =>
          cases hr : inlBlock ρ (y :: ys) with
          | error z => rw [hr] at h; cases h
          | ok ys' =>
            rw [hr] at h
            cases ok_inj h
            have s2 := inlBlock_ok hρ (y :: ys) Γ look ys' hg.2 (by simp) hr
            have hgl : ∀ e, e ∈ (x' :: ys').getLast? → e ∈ ys'.getLast? := by
              intro e he
              cases hys : ys' with
              | nil => exact absurd hys s2.ne
              | cons a as => rw [hys, List.getLast?_cons_cons] at he; exact he
            refine ⟨(goodL_cons s2.ne).2 ⟨st.good, s2.good⟩, by simp, ?_, fun l => ?_, fun hd e he => by (cases hd), fun hh e he => ?_⟩
            · rw [means_cons, means_cons, M.seqs_cons (means_ne s2.ne), M.seqs_cons (means_ne (by simp)), st.mean, s2.mean]
            · rw [cntL, cntL]; exact Nat.add_le_add (st.cnt l) (s2.cnt l)
            · exact s2.never (fun f hf => hh f (by rw [List.getLast?_cons_cons]; exact hf)) e (hgl e he)
end

end

end Verif.Fold
