import Verif.FoldAnd
/-! # Solving a conditional keeps its meaning -/
namespace Verif.Fold

section
variable {S T J : Type} {I : Sem S T J}

/-! ## Where values come from -/

theorem ite_val {x a b : M S T J} {s s' : S} {v : Option T} (h : x.ite a b s = some (s', .val v)) :
    ∃ s1 u, x s = some (s1, .val u) ∧ ((u.isSome = true ∧ a s1 = some (s', .val v)) ∨ (u = none ∧ b s1 = some (s', .val v))) := by
  obtain ⟨s1, u, h1, h2⟩ := M.bind_val h
  refine ⟨s1, u, h1, ?_⟩
  cases u with
  | none => exact Or.inr ⟨rfl, h2⟩
  | some w => exact Or.inl ⟨rfl, h2⟩

/-- A value of `||` is a truthy one of an operand before the last, or one of the last. -/
theorem or_val : {xs : List (M S T J)} → {y : M S T J} → {s s' : S} → {v : Option T} → M.or (xs ++ [y]) s = some (s', .val v) →
    (v.isSome = true ∧ ∃ x ∈ xs, ∃ s1 s2, x s1 = some (s2, .val v)) ∨ ∃ s1 s2, y s1 = some (s2, .val v)
  | [], _, s, s', _, h => Or.inr ⟨s, s', h⟩
  | x :: xs, y, s, s', v, h => by
    rw [List.cons_append, M.or_cons (by simp)] at h
    obtain ⟨s1, u, h1, h2⟩ := M.bind_val h
    cases u with
    | none =>
      rcases or_val (xs := xs) h2 with ⟨h3, z, hz, h4⟩ | h3
      · exact Or.inl ⟨h3, z, List.mem_cons_of_mem _ hz, h4⟩
      · exact Or.inr h3
    | some w =>
      unfold M.pure at h2
      simp at h2
      obtain ⟨rfl, rfl⟩ := h2
      exact Or.inl ⟨rfl, x, by simp, s, s1, h1⟩

/-- A value of `&&` is falsy since an operand before the last is, or it is one of the last. -/
theorem and_val : {xs : List (M S T J)} → {y : M S T J} → {s s' : S} → {v : Option T} → M.and (xs ++ [y]) s = some (s', .val v) →
    (v = none ∧ ∃ x ∈ xs, ∃ s1 s2, x s1 = some (s2, .val none)) ∨ ∃ s1 s2, y s1 = some (s2, .val v)
  | [], _, s, s', _, h => Or.inr ⟨s, s', h⟩
  | x :: xs, y, s, s', v, h => by
    rw [List.cons_append, M.and_cons (by simp)] at h
    obtain ⟨s1, u, h1, ⟨h2, h3⟩ | ⟨rfl, h3⟩⟩ := ite_val h
    · rcases and_val (xs := xs) h3 with ⟨h4, z, hz, h5⟩ | h4
      · exact Or.inl ⟨h4, z, List.mem_cons_of_mem _ hz, h5⟩
      · exact Or.inr h4
    · unfold M.pure at h3
      simp at h3
      obtain ⟨rfl, rfl⟩ := h3
      exact Or.inl ⟨rfl, x, by simp, s, s1, h1⟩

theorem mem_means {es : List E} {x : M S T J} (h : x ∈ means I es) : ∃ e ∈ es, x = e.mean I := by
  induction es with
  | nil => rw [means_nil] at h; cases h
  | cons e es ih =>
    rw [means_cons] at h
    rcases List.mem_cons.1 h with rfl | h
    · exact ⟨e, by simp, rfl⟩
    · obtain ⟨f, h1, h2⟩ := ih h
      exact ⟨f, List.mem_cons_of_mem _ h1, h2⟩

/-! ## Types -/

variable {cs : Canon → Canon → Option Canon}

theorem clean_join {c : Canon} {a b : Ty} (ha : a.clean = true) (hb : b.clean = true) : (joinTy c a b).clean = true := by
  unfold Ty.clean joinTy at *
  revert ha hb
  cases a.mutref <;> cases b.mutref <;> cases a.ref <;> cases b.ref <;> cases a.stat <;> cases b.stat <;> simp

theorem definit_clean (t : Ty) : (definitType t).clean = true := by
  unfold definitType Ty.clean
  dsimp only
  cases (if t.canon == .none || t.isNever then tZeroes else t).ref <;> rfl

theorem definit_never (t : Ty) : (definitType t).isNever = false := by
  unfold definitType Ty.isNever
  by_cases h : (t.canon == .none || t.canon == .never) = true
  · simp [h, tZeroes]
  · simp only [h]
    simp at h ⊢
    exact h.2

theorem Says.definit (t : Ty) : Says (T := T) (definitType t) none := ⟨by simp [definitType], fun _ => rfl, fun _ => rfl, fun _ => rfl⟩

/-- What is said of the common type is said of both. -/
theorem trySuper_says (hcs : CsOk cs) {a b t : Ty} (h : trySuper cs a b = some t) {v : Option T} (hv : Says a v ∨ Says b v) : Says t v := by
  unfold trySuper at h
  have join : ∀ c a b, cs a.canon b.canon = some c → (Says a v ∨ Says b v) → Says (joinTy c a b) v := by
    intro c a b hc hv
    refine ⟨?_, ?_, ?_, fun hr => ?_⟩
    · unfold joinTy
      simp only [Bool.and_eq_true]
      rintro ⟨h1, h2⟩
      rcases hv with hv | hv
      · exact hv.1 h1
      · exact hv.1 h2
    · unfold joinTy
      simp only [Bool.and_eq_true]
      rintro ⟨h1, h2⟩
      rcases hv with hv | hv
      · exact hv.2.1 h1
      · exact hv.2.1 h2
    · intro hz
      have hz : c = .zeroes := hz
      subst hz
      have := hcs.zeroes _ _ hc
      rcases hv with hv | hv
      · exact hv.2.2.1 this.1
      · exact hv.2.2.1 this.2
    · have hr : (a.rel || b.rel) = false := hr
      simp at hr
      rcases hv with hv | hv
      · exact hv.2.2.2 hr.1
      · exact hv.2.2.2 hr.2
  have zero : ∀ c b, cs b.canon b.canon = some c → (v = none ∨ Says b v) → Says (joinTy c b (definitType b)) v := by
    intro c b hc hv
    refine ⟨?_, ?_, ?_, fun hr => ?_⟩
    · simp [joinTy, definitType]
    · simp only [joinTy, Bool.and_eq_true]
      rintro ⟨h1, _⟩
      rcases hv with hv | hv
      · exact hv
      · exact hv.2.1 h1
    · intro hz
      have hz : c = .zeroes := hz
      subst hz
      rcases hv with hv | hv
      · exact hv
      · exact hv.2.2.1 (hcs.zeroes _ _ hc).1
    · have hr : (b.rel || (definitType b).rel) = false := hr
      simp at hr
      rcases hv with hv | hv
      · exact hv
      · exact hv.2.2.2 hr.1
  cases hc : cs a.canon b.canon with
  | some c =>
    rw [hc] at h
    injection h with h
    subst h
    exact join c a b hc hv
  | none =>
    rw [hc] at h
    dsimp only at h
    by_cases c1 : a.canon = .zeroes
    · rw [if_pos c1] at h
      cases hc2 : cs b.canon b.canon with
      | none => rw [hc2] at h; cases h
      | some c =>
        rw [hc2] at h
        injection h with h
        subst h
        exact zero c b hc2 (hv.imp (fun x => x.2.2.1 c1) id)
    · rw [if_neg c1] at h
      by_cases c2 : b.canon = .zeroes
      · rw [if_pos c2] at h
        cases hc2 : cs a.canon a.canon with
        | none => rw [hc2] at h; cases h
        | some c =>
          rw [hc2] at h
          injection h with h
          subst h
          refine zero c a hc2 (hv.symm.imp (fun x => x.2.2.1 c2) id)
      · rw [if_neg c2] at h; cases h

/-- Of types that are as they should be. -/
def WfTy (t : Ty) : Prop := t.canon = .zeroes → t.clean = true

theorem trySuper_wf (hcs : CsOk cs) {a b t : Ty} (h : trySuper cs a b = some t) (ha : WfTy a) (hb : WfTy b) : WfTy t := by
  unfold trySuper at h
  have key : ∀ (c : Canon) (a _b : Ty), WfTy a → (cs a.canon a.canon = some c) → WfTy (joinTy c a (definitType a)) := by
    intro c a b ha hc hz
    have hz : c = .zeroes := hz
    subst hz
    exact clean_join (ha (hcs.zeroes _ _ hc).1) (definit_clean _)
  cases hc : cs a.canon b.canon with
  | some c =>
    rw [hc] at h
    injection h with h
    subst h
    intro hz
    have hz : c = .zeroes := hz
    subst hz
    have := hcs.zeroes _ _ hc
    exact clean_join (ha this.1) (hb this.2)
  | none =>
    rw [hc] at h
    dsimp only at h
    by_cases c1 : a.canon = .zeroes
    · rw [if_pos c1] at h
      cases hc2 : cs b.canon b.canon with
      | none => rw [hc2] at h; cases h
      | some c =>
        rw [hc2] at h
        injection h with h
        subst h
        exact key c b a hb hc2
    · rw [if_neg c1] at h
      by_cases c2 : b.canon = .zeroes
      · rw [if_pos c2] at h
        cases hc2 : cs a.canon a.canon with
        | none => rw [hc2] at h; cases h
        | some c =>
          rw [hc2] at h
          injection h with h
          subst h
          exact key c a b ha hc2
      · rw [if_neg c2] at h; cases h

theorem trySuper_never (hcs : CsOk cs) {a b t : Ty} (h : trySuper cs a b = some t) (ha : a.isNever = false) (hb : b.isNever = false) :
    t.isNever = false := by
  unfold trySuper at h
  have n : ∀ {t : Ty}, t.isNever = false → t.canon ≠ .never := by
    intro t h hh
    unfold Ty.isNever at h
    rw [hh] at h
    simp at h
  have key : ∀ c a b, cs a b = some c → a ≠ .never → b ≠ .never → (c == .never) = false := by
    intro c a b hc h1 h2
    simp only [beq_eq_false_iff_ne, ne_eq]
    rintro rfl
    rcases hcs.never _ _ hc with h | h
    · exact h1 h
    · exact h2 h
  cases hc : cs a.canon b.canon with
  | some c =>
    rw [hc] at h
    injection h with h
    subst h
    exact key _ _ _ hc (n ha) (n hb)
  | none =>
    rw [hc] at h
    dsimp only at h
    by_cases c1 : a.canon = .zeroes
    · rw [if_pos c1] at h
      cases hc2 : cs b.canon b.canon with
      | none => rw [hc2] at h; cases h
      | some c =>
        rw [hc2] at h
        injection h with h
        subst h
        exact key _ _ _ hc2 (n hb) (n hb)
    · rw [if_neg c1] at h
      by_cases c2 : b.canon = .zeroes
      · rw [if_pos c2] at h
        cases hc2 : cs a.canon a.canon with
        | none => rw [hc2] at h; cases h
        | some c =>
          rw [hc2] at h
          injection h with h
          subst h
          exact key _ _ _ hc2 (n ha) (n ha)
      · rw [if_neg c2] at h; cases h

/-! ## `createIf` -/

theorem says_tBool (v : Option T) : Says tBool v := ⟨by simp [tBool], by simp [tBool], by simp [tBool], by simp [tBool]⟩

theorem createIf_ok (hcs : CsOk cs) {Γ : List Nat} {cond cons alt e : E} {type : Ty}
    (hc : Good I Γ true cond) (ha : Good I Γ type.look cons) (hb : Good I Γ type.look alt)
    (hua : Uniq Γ fun l => cnt l cons) (hub : Uniq Γ fun l => cnt l alt)
    (h : createIf cs cond cons alt type = .ok e) :
    Good I Γ type.look e ∧ e.mean I = (cond.mean I).ite (cons.mean I) (alt.mean I) ∧ ∀ l, cnt l e ≤ cnt l cond + cnt l cons + cnt l alt := by
  unfold createIf at h
  by_cases hn : cond.ty.isNever = true
  · rw [if_pos hn] at h; cases h
  · rw [if_neg hn] at h
    cases hae : absEval cond.ty false with
    | error x => rw [hae] at h; cases h
    | ok se =>
      rw [hae] at h
      simp only [bind, Except.bind] at h
      cases se with
      | isTrue =>
        injection h with h
        subst h
        refine ⟨createBlock_good hc ha hua, ?_, fun l => Nat.le_trans (cnt_createBlock l cond cons) (by omega)⟩
        rw [createBlock_mean hc ha hua]
        refine M.bind_congr fun s s' v hx => ?_
        rw [if_pos (hc.facts.tru (absEval_true hae) _ _ _ hx)]
      | isFalse =>
        injection h with h
        subst h
        refine ⟨createBlock_good hc hb hub, ?_, fun l => Nat.le_trans (cnt_createBlock l cond alt) (by omega)⟩
        rw [createBlock_mean hc hb hub]
        refine M.bind_congr fun s s' v hx => ?_
        rw [hc.facts.fals (absEval_false hae) _ _ _ hx]; rfl
      | unknown =>
        -- whatever the type is
        have fin : ∀ t, e = .ite cond cons alt t → WfTy t → (t.isNever = true → cons.ty.isNever = true ∧ alt.ty.isNever = true) → (∀ s s' v, (cons.mean I s = some (s', .val v) ∨ alt.mean I s = some (s', .val v)) →
            t.isNever = false ∧ (type.look = true → Says t v)) →
            Good I Γ type.look e ∧ e.mean I = (cond.mean I).ite (cons.mean I) (alt.mean I) ∧
              ∀ l, cnt l e ≤ cnt l cond + cnt l cons + cnt l alt := by
          rintro t rfl hw hnv hs
          refine ⟨⟨⟨hw, fun s s' v hx => ?_⟩, hc, ha.mono (fun _ hx => hx) below_true, hb.mono (fun _ hx => hx) below_true, hnv⟩, mean_ite .., fun l => by rw [cnt]; omega⟩
          rw [mean_ite] at hx
          obtain ⟨s1, u, _, ⟨_, h2⟩ | ⟨_, h2⟩⟩ := ite_val hx
          · exact hs _ _ _ (Or.inl h2)
          · exact hs _ _ _ (Or.inr h2)
        dsimp only at h
        by_cases c1 : (cons.ty.isNever && alt.ty.isNever) = true
        · rw [if_pos c1] at h
          injection h with h
          simp at c1
          refine fin tNever h.symm (by intro hh; cases hh) (fun _ => c1) fun s s' v hx => ?_
          rcases hx with hx | hx
          · exact absurd hx (ha.facts.noVal c1.1 _ _ _)
          · exact absurd hx (hb.facts.noVal c1.2 _ _ _)
        rw [if_neg c1] at h
        by_cases c2 : type.boolval = true
        · rw [if_pos c2] at h
          injection h with h
          exact fin tBool h.symm (by intro hh; cases hh) (by intro hh; cases hh) fun s s' v hx => ⟨rfl, fun _ => says_tBool v⟩
        rw [if_neg c2] at h
        by_cases c3 : (type.canon == .void) = true
        · rw [if_pos c3] at h
          injection h with h
          simp at c3
          refine fin type h.symm (by intro hh; rw [c3] at hh; cases hh) (by intro hh; simp [Ty.isNever, c3] at hh) fun s s' v hx => ⟨by simp [Ty.isNever, c3], fun hl => ?_⟩
          simp [Ty.look, c3] at hl
        rw [if_neg c3] at h
        by_cases c4 : cons.ty.isNever = true
        · rw [if_pos c4] at h
          injection h with h
          refine fin alt.ty h.symm hb.facts.1 (fun hh => ⟨c4, hh⟩) fun s s' v hx => ?_
          rcases hx with hx | hx
          · exact absurd hx (ha.facts.noVal c4 _ _ _)
          · exact hb.facts.2 _ _ _ hx
        rw [if_neg c4] at h
        by_cases c5 : alt.ty.isNever = true
        · rw [if_pos c5] at h
          injection h with h
          refine fin cons.ty h.symm ha.facts.1 (fun hh => ⟨hh, c5⟩) fun s s' v hx => ?_
          rcases hx with hx | hx
          · exact ha.facts.2 _ _ _ hx
          · exact absurd hx (hb.facts.noVal c5 _ _ _)
        rw [if_neg c5] at h
        cases ht : trySuper cs cons.ty alt.ty with
        | none => rw [ht] at h; cases h
        | some t =>
          rw [ht] at h
          injection h with h
          refine fin t h.symm (trySuper_wf hcs ht ha.facts.1 hb.facts.1)
            (fun hh => by rw [trySuper_never hcs ht (by simpa using c4) (by simpa using c5)] at hh; cases hh) fun s s' v hx =>
            ⟨trySuper_never hcs ht (by simpa using c4) (by simpa using c5), fun hl => trySuper_says hcs ht ?_⟩
          rcases hx with hx | hx
          · exact Or.inl ((ha.facts.2 _ _ _ hx).2 hl)
          · exact Or.inr ((hb.facts.2 _ _ _ hx).2 hl)

end

end Verif.Fold
