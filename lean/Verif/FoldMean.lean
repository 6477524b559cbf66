import Verif.FoldSpec
/-! # Laws of running expressions -/
namespace Verif.Fold

namespace M
variable {S T J : Type}

theorem bind_congr {x : M S T J} {f g : Option T → M S T J} (h : ∀ s s' v, x s = some (s', .val v) → f v s' = g v s') :
    x.bind f = x.bind g := by
  funext s
  unfold bind
  cases hx : x s with
  | none => rfl
  | some p =>
    obtain ⟨s', r⟩ := p
    cases r with
    | val v => exact h s s' v hx
    | jump l v => rfl
    | exit j => rfl

theorem bind_assoc (x : M S T J) (f g : Option T → M S T J) : (x.bind f).bind g = x.bind fun v => (f v).bind g := by
  funext s
  unfold bind
  cases hx : x s with
  | none => rfl
  | some p =>
    obtain ⟨s', r⟩ := p
    cases r <;> rfl

@[simp] theorem pure_bind (v : Option T) (f : Option T → M S T J) : (pure v).bind f = f v := rfl

@[simp] theorem bind_pure (x : M S T J) : x.bind pure = x := by
  funext s
  unfold bind
  cases hx : x s with
  | none => rfl
  | some p =>
    obtain ⟨s', r⟩ := p
    cases r <;> rfl

theorem bind_val {x : M S T J} {f : Option T → M S T J} {s s' : S} {v : Option T} (h : x.bind f s = some (s', .val v)) :
    ∃ s1 u, x s = some (s1, .val u) ∧ f u s1 = some (s', .val v) := by
  unfold bind at h
  cases hx : x s with
  | none => rw [hx] at h; cases h
  | some p =>
    obtain ⟨s1, r⟩ := p
    rw [hx] at h
    cases r with
    | val u => exact ⟨s1, u, rfl, h⟩
    | jump l u => cases h
    | exit j => cases h

theorem bind_jump {x : M S T J} {f : Option T → M S T J} {s s' : S} {l : Nat} {v : Option T} (h : x.bind f s = some (s', .jump l v)) :
    x s = some (s', .jump l v) ∨ ∃ s1 u, x s = some (s1, .val u) ∧ f u s1 = some (s', .jump l v) := by
  unfold bind at h
  cases hx : x s with
  | none => rw [hx] at h; cases h
  | some p =>
    obtain ⟨s1, r⟩ := p
    rw [hx] at h
    cases r with
    | val u => exact Or.inr ⟨s1, u, rfl, h⟩
    | jump l u => exact Or.inl h
    | exit j => cases h

theorem and_cons {x : M S T J} {xs : List (M S T J)} (h : xs ≠ []) : M.and (x :: xs) = x.ite (M.and xs) (pure none) := by
  cases xs with
  | nil => exact absurd rfl h
  | cons y ys => rfl

theorem or_cons {x : M S T J} {xs : List (M S T J)} (h : xs ≠ []) :
    M.or (x :: xs) = x.bind fun v => if v.isSome then pure v else M.or xs := by
  cases xs with
  | nil => exact absurd rfl h
  | cons y ys => rfl

theorem seqs_cons {x : M S T J} {xs : List (M S T J)} (h : xs ≠ []) : M.seqs (x :: xs) = x.seq (M.seqs xs) := by
  cases xs with
  | nil => exact absurd rfl h
  | cons y ys => rfl

/-- The operands before the last only matter as conditions: all of them. -/
theorem and_append (xs ys : List (M S T J)) (h : ys ≠ []) : M.and (xs ++ ys) = M.and (xs ++ [M.and ys]) := by
  induction xs with
  | nil => rfl
  | cons x xs ih =>
    rw [List.cons_append, List.cons_append, and_cons (by simp [h]), and_cons (by simp), ih]

theorem or_append (xs ys : List (M S T J)) (h : ys ≠ []) : M.or (xs ++ ys) = M.or (xs ++ [M.or ys]) := by
  induction xs with
  | nil => rfl
  | cons x xs ih =>
    rw [List.cons_append, List.cons_append, or_cons (by simp [h]), or_cons (by simp), ih]

theorem catch_none (x : M S T J) : x.catchJump none = x := by
  funext s
  unfold catchJump
  cases hx : x s with
  | none => rfl
  | some p =>
    obtain ⟨s', r⟩ := p
    cases r <;> simp

/-- What does not jump to the label may stand inside or outside of the block. -/
theorem catch_bind {x : M S T J} {f : Option T → M S T J} {l : Option Nat}
    (h : ∀ s s' l' v, x s = some (s', .jump l' v) → l ≠ some l') : (x.bind f).catchJump l = x.bind fun v => (f v).catchJump l := by
  funext s
  unfold catchJump bind
  cases hx : x s with
  | none => rfl
  | some p =>
    obtain ⟨s', r⟩ := p
    cases r with
    | val v => rfl
    | exit j => rfl
    | jump l' v => simp [h s s' l' v hx]

end M

section
variable {S T J : Type} {I : Sem S T J}

theorem mean_block (l : Option Nat) (es : List E) (t : Ty) : (E.block l es t).mean I = (M.seqs (means I es)).catchJump l := by rw [E.mean]
theorem mean_and (es : List E) (t : Ty) : (E.and es t).mean I = M.and (means I es) := by rw [E.mean]
theorem mean_or (es : List E) (t : Ty) : (E.or es t).mean I = M.or (means I es) := by rw [E.mean]
theorem mean_ite (c a b : E) (t : Ty) : (E.ite c a b t).mean I = (c.mean I).ite (a.mean I) (b.mean I) := by rw [E.mean]
theorem mean_not (e : E) (t : Ty) : (E.not e t).mean I = (e.mean I).bind fun v => .pure (if v.isSome then none else some I.tt) := by
  rw [E.mean]
theorem mean_field (n : Nat) (e : E) (t : Ty) : (E.field n e t).mean I = (e.mean I).bind fun v => .pure (I.field n v) := by rw [E.mean]
theorem mean_call (n : Nat) (p : Ty) (e : E) (t : Ty) :
    (E.call n p e t).mean I = (slot I p (e.mean I)).bind fun v => opaqueM (I.call n v) := by rw [E.mean]
theorem mean_copy (e : E) (t : Ty) : (E.copy e t).mean I = e.mean I := by rw [E.mean]
theorem mean_jump (l : Nat) (p : Ty) (e : E) (t : Ty) : (E.jump l p e t).mean I = (slot I p (e.mean I)).jumpTo l := by rw [E.mean]
theorem means_cons (e : E) (es : List E) : means I (e :: es) = e.mean I :: means I es := by rw [means]
theorem means_nil : means I [] = [] := by rw [means]

theorem Good.facts {Γ : List Nat} {k : Bool} : {e : E} → Good I Γ k e → FactsAt k e.ty (e.mean I)
  | .lit .., h | .bool .., h | .definit .., h | .var .., h | .leaf .., h => h
  | .field .., h | .call .., h | .copy .., h | .not .., h | .and .., h | .or .., h | .ite .., h | .block .., h | .jump .., h => h.1

/-- What is good if the value is looked at is good if it is not. -/
theorem FactsAt.mono {k k' : Bool} {t : Ty} {x : M S T J} (h : FactsAt k t x) (hk : k' = true → k = true) : FactsAt k' t x :=
  ⟨h.1, fun s s' v hx => ⟨(h.2 s s' v hx).1, fun hl => (h.2 s s' v hx).2 (hk hl)⟩⟩

theorem below_mono {k k' : Bool} {t : Ty} (hk : k' = true → k = true) : below k' t = true → below k t = true := by
  unfold below
  cases t.isNever <;> simp
  exact hk

theorem below_true {k : Bool} {t : Ty} : below k t = true → k = true := by
  unfold below
  cases k <;> simp

mutual
theorem Good.mono {Γ Δ : List Nat} {k k' : Bool} (hs : Γ ⊆ Δ) (hk : k' = true → k = true) : {e : E} → Good I Γ k e → Good I Δ k' e
  | .lit .., h | .bool .., h | .definit .., h | .var .., h | .leaf .., h => FactsAt.mono h hk
  | .field .., h => ⟨h.1.mono hk, h.2.mono hs id⟩
  | .call .., h => ⟨h.1.mono hk, h.2.mono hs id⟩
  | .copy .., h => ⟨h.1.mono hk, h.2.mono hs (below_mono hk)⟩
  | .not .., h => ⟨h.1.mono hk, h.2.mono hs id⟩
  | .and .., h => ⟨h.1.mono hk, GoodL.mono hs id hk h.2.1, h.2.2⟩
  | .or .., h => ⟨h.1.mono hk, GoodL.mono hs id hk h.2.1, h.2.2⟩
  | .ite .., h => ⟨h.1.mono hk, h.2.1.mono hs id, h.2.2.1.mono hs (below_mono hk), h.2.2.2.1.mono hs (below_mono hk), h.2.2.2.2⟩
  | .block l .., h => ⟨h.1.mono hk, GoodL.mono (by
      intro x hx
      rcases List.mem_append.1 hx with hx | hx
      · exact List.mem_append_left _ hx
      · exact List.mem_append_right _ (hs hx)) id (below_mono hk) h.2.1, h.2.2⟩
  | .jump .., h => ⟨h.1.mono hk, h.2.1.mono hs id, hs h.2.2⟩

theorem GoodL.mono {Γ Δ : List Nat} {k k' kl kl' : Bool} (hs : Γ ⊆ Δ) (hk : k' = true → k = true) (hl : kl' = true → kl = true) :
    {es : List E} → GoodL I Γ k kl es → GoodL I Δ k' kl' es
  | [], _ => trivial
  | [_], h => ⟨h.1.mono hs hl, trivial⟩
  | _ :: _ :: _, h => ⟨h.1.mono hs hk, GoodL.mono hs hk hl h.2⟩
end

theorem Good.low {Γ : List Nat} {k : Bool} {e : E} (h : Good I Γ true e) : Good I Γ k e := h.mono (fun _ hx => hx) fun _ => rfl
theorem Good.eff {Γ : List Nat} {k : Bool} {e : E} (h : Good I Γ k e) : Good I Γ false e := h.mono (fun _ hx => hx) fun hh => by cases hh

theorem goodL_one {Γ : List Nat} {k kl : Bool} {e : E} : GoodL I Γ k kl [e] ↔ Good I Γ kl e := by simp [GoodL]

theorem goodL_cons {Γ : List Nat} {k kl : Bool} {e : E} {es : List E} (h : es ≠ []) :
    GoodL I Γ k kl (e :: es) ↔ Good I Γ k e ∧ GoodL I Γ k kl es := by
  cases es with
  | nil => exact absurd rfl h
  | cons f fs => simp [GoodL]

theorem goodL_append {Γ : List Nat} {k kl : Bool} {es fs : List E} (h : fs ≠ []) :
    GoodL I Γ k kl (es ++ fs) ↔ GoodL I Γ k k es ∧ GoodL I Γ k kl fs := by
  induction es with
  | nil => simp [GoodL]
  | cons e es ih =>
    rw [List.cons_append, goodL_cons (by simp [h]), ih]
    cases es with
    | nil => simp [GoodL]
    | cons a as => rw [goodL_cons (e := e) (es := a :: as) (by simp), and_assoc]

theorem goodL_mem {Γ : List Nat} {k : Bool} {es : List E} : GoodL I Γ k k es ↔ ∀ e ∈ es, Good I Γ k e := by
  induction es with
  | nil => simp [GoodL]
  | cons e es ih => simp [GoodL, ih]

theorem means_append (es fs : List E) : means I (es ++ fs) = means I es ++ means I fs := by
  induction es with
  | nil => simp [means]
  | cons e es ih => simp [means, ih]

theorem means_ne {es : List E} (h : es ≠ []) : means I es ≠ [] := by
  cases es with
  | nil => exact absurd rfl h
  | cons e es => simp [means]

theorem cntL_append (l : Nat) (es fs : List E) : cntL l (es ++ fs) = cntL l es + cntL l fs := by
  induction es with
  | nil => simp [cntL]
  | cons e es ih => simp [cntL, ih]; omega

/-- No jump to `l`. -/
def NoJump (l : Nat) (x : M S T J) : Prop := ∀ s s' v, x s ≠ some (s', .jump l v)

theorem NoJump.bind {l : Nat} {x : M S T J} {f : Option T → M S T J} (h : NoJump l x) (hf : ∀ v, NoJump l (f v)) : NoJump l (x.bind f) := by
  intro s s' v hx
  rcases M.bind_jump hx with hx | ⟨s1, u, _, hx⟩
  · exact h _ _ _ hx
  · exact hf u _ _ _ hx

theorem NoJump.pure (l : Nat) (v : Option T) : NoJump l (M.pure v : M S T J) := by
  intro s s' u h
  unfold M.pure at h
  simp at h

theorem NoJump.asB {l : Nat} {x : M S T J} (h : NoJump l x) : NoJump l (asB I x) := h.bind fun _ => NoJump.pure _ _

theorem NoJump.slot {l : Nat} {x : M S T J} (h : NoJump l x) (t : Ty) : NoJump l (slot I t x) := by
  unfold Verif.Fold.slot discard M.seq
  split
  · exact h.bind fun _ => NoJump.pure _ _
  · split
    · exact h.asB
    · exact h

theorem NoJump.ite {l : Nat} {x a b : M S T J} (h : NoJump l x) (ha : NoJump l a) (hb : NoJump l b) : NoJump l (x.ite a b) := by
  refine h.bind fun v => ?_
  cases v
  · exact hb
  · exact ha

theorem NoJump.and {l : Nat} : {xs : List (M S T J)} → (∀ x ∈ xs, NoJump l x) → NoJump l (M.and xs)
  | [], _ => NoJump.pure _ _
  | [x], h => h x (by simp)
  | x :: y :: ys, h => (h x (by simp)).ite (NoJump.and (xs := y :: ys) fun z hz => h z (List.mem_cons_of_mem _ hz)) (NoJump.pure _ _)

theorem NoJump.or {l : Nat} : {xs : List (M S T J)} → (∀ x ∈ xs, NoJump l x) → NoJump l (M.or xs)
  | [], _ => NoJump.pure _ _
  | [x], h => h x (by simp)
  | x :: y :: ys, h => by
    rw [M.or_cons (by simp)]
    refine (h x (by simp)).bind fun v => ?_
    cases v
    · exact NoJump.or (xs := y :: ys) fun z hz => h z (List.mem_cons_of_mem _ hz)
    · exact NoJump.pure _ _

theorem NoJump.seqs {l : Nat} : {xs : List (M S T J)} → (∀ x ∈ xs, NoJump l x) → NoJump l (M.seqs xs)
  | [], _ => NoJump.pure _ _
  | [x], h => h x (by simp)
  | x :: y :: ys, h => (h x (by simp)).bind fun _ => NoJump.seqs (xs := y :: ys) fun z hz => h z (List.mem_cons_of_mem _ hz)

theorem NoJump.opaque (l : Nat) (f : S → Option (S × (Option T ⊕ J))) : NoJump l (opaqueM f) := by
  intro s s' v h
  unfold opaqueM at h
  split at h <;> simp at h

mutual
theorem Good.noJump {Γ : List Nat} {k : Bool} {l : Nat} (hl : l ∉ Γ) : {e : E} → Good I Γ k e → NoJump l (e.mean I)
  | .lit .., h | .bool .., h | .definit .., h => by unfold E.mean; exact NoJump.pure _ _
  | .var .., h => by unfold E.mean; intro s s' v hh; simp at hh
  | .leaf .., h => by unfold E.mean; exact NoJump.opaque _ _
  | .field .., h => by rw [mean_field]; exact (h.2.noJump hl).bind fun _ => NoJump.pure _ _
  | .call .., h => by rw [mean_call]; exact ((h.2.noJump hl).slot _).bind fun _ => NoJump.opaque _ _
  | .copy .., h => by rw [mean_copy]; exact h.2.noJump hl
  | .not .., h => by rw [mean_not]; exact (h.2.noJump hl).bind fun _ => NoJump.pure _ _
  | .and .., h => by rw [mean_and]; exact NoJump.and (GoodL.noJump hl h.2.1)
  | .or .., h => by rw [mean_or]; exact NoJump.or (GoodL.noJump hl h.2.1)
  | .ite .., h => by
    rw [mean_ite]
    exact (h.2.1.noJump hl).ite (h.2.2.1.noJump hl) (h.2.2.2.1.noJump hl)
  | .block l' es t, h => by
    rw [mean_block]
    by_cases c : l' = some l
    · intro s s' v hh
      unfold M.catchJump at hh
      split at hh
      · split at hh
        · simp at hh
        · next hne =>
          simp at hh
          exact hne (by rw [c, hh.2.1])
      · next hne => exact hne _ _ _ hh
    · have hn : NoJump l (M.seqs (means I es)) := NoJump.seqs (GoodL.noJump (by
        rw [List.mem_append]
        rintro (hm | hm)
        · cases l' with
          | none => cases hm
          | some k => simp at hm; exact c (by rw [hm])
        · exact hl hm) h.2.1)
      intro s s' v hh
      unfold M.catchJump at hh
      split at hh
      · next hx =>
        split at hh
        · simp at hh
        · simp at hh
          exact hn _ _ _ (hx.trans (by rw [hh.2.1]))
      · next hne => exact hne _ _ _ hh
  | .jump l' p e t, h => by
    rw [mean_jump]
    unfold M.jumpTo
    intro s s' v hh
    rcases M.bind_jump hh with hh | ⟨s1, u, _, hh⟩
    · exact ((h.2.1.noJump hl).slot _) _ _ _ hh
    · simp at hh
      exact hl (hh.2.1 ▸ h.2.2)

theorem GoodL.noJump {Γ : List Nat} {k kl : Bool} {l : Nat} (hl : l ∉ Γ) : {es : List E} → GoodL I Γ k kl es → ∀ x ∈ means I es, NoJump l x
  | [], _ => by intro x hx; rw [means_nil] at hx; cases hx
  | e :: es, h => by
    intro x hx
    rw [means_cons] at hx
    rcases List.mem_cons.1 hx with rfl | hx
    · exact h.1.noJump hl
    · exact GoodL.noJump hl h.2 x hx
end

/-- Nothing looks at the value of what never gives one. -/
theorem Good.never {Γ : List Nat} {k k' : Bool} {e : E} (h : Good I Γ k e) (hn : e.ty.isNever = true) : Good I Γ k' e := by
  have hf : FactsAt k' e.ty (e.mean I) := ⟨h.facts.1, fun s s' v hx => by
    have := (h.facts.2 s s' v hx).1
    rw [hn] at this
    cases this⟩
  have hb : ∀ {t : Ty}, t.isNever = true → below k t = below k' t := by
    intro t ht
    unfold below
    simp [ht]
  cases e with
  | lit => exact hf
  | bool => exact hf
  | definit => exact hf
  | var => exact hf
  | leaf => exact hf
  | field => exact ⟨hf, h.2⟩
  | call => exact ⟨hf, h.2⟩
  | copy => exact ⟨hf, hb hn ▸ h.2⟩
  | not => exact ⟨hf, h.2⟩
  | and es t =>
    have := h.2.2.2
    have hn : t.isNever = true := hn
    rw [hn] at this; cases this
  | or es t =>
    have := h.2.2.2
    have hn : t.isNever = true := hn
    rw [hn] at this; cases this
  | ite => exact ⟨hf, h.2.1, hb hn ▸ h.2.2.1, hb hn ▸ h.2.2.2.1, h.2.2.2.2⟩
  | block => exact ⟨hf, hb hn ▸ h.2.1, h.2.2⟩
  | jump => exact ⟨hf, h.2⟩

/-! ## `createBlock` -/

theorem createBlock_ty (a b : E) : (createBlock a b).ty = b.ty := by
  unfold createBlock
  split
  · rfl
  · split <;> rfl

theorem discard_seq {a : E} (h : a.discardable = true) (x : M S T J) : (a.mean I).seq x = x := by
  cases a <;> first | (simp [E.discardable] at h; done) | (unfold E.mean; rfl)

theorem cnt_createBlock (l : Nat) (a b : E) : cnt l (createBlock a b) ≤ cnt l a + cnt l b := by
  unfold createBlock
  split
  · omega
  · split
    · simp [cnt, cntL]; omega
    · simp [cnt, cntL]

theorem createBlock_mean {Γ : List Nat} {k k' : Bool} {a b : E} (ha : Good I Γ k' a) (hb : Good I Γ k b) (hu : Uniq Γ fun l => cnt l b) :
    (createBlock a b).mean I = (a.mean I).seq (b.mean I) := by
  unfold createBlock
  by_cases hd : a.discardable = true
  · rw [if_pos hd, discard_seq hd]
  · rw [if_neg hd]
    split
    · next l es t =>
      rw [mean_block, mean_block, means_cons, M.seqs_cons (means_ne hb.2.2.1)]
      unfold M.seq
      rw [M.catch_bind]
      intro s s' l' v hx hl
      subst hl
      refine ha.noJump (l := l') ?_ s s' v hx
      intro hm
      have := (hu l').2 hm
      simp [cnt] at this
    · rw [mean_block, means_cons, means_cons, means_nil, M.catch_none]
      rfl

theorem createBlock_good {Γ : List Nat} {k k' : Bool} {a b : E} (ha : Good I Γ k' a) (hb : Good I Γ k b) (hu : Uniq Γ fun l => cnt l b) :
    Good I Γ k (createBlock a b) := by
  have hm := createBlock_mean ha hb hu
  have hf : FactsAt k (createBlock a b).ty ((createBlock a b).mean I) := by
    rw [hm, createBlock_ty]
    refine ⟨hb.facts.1, fun s s' v hx => ?_⟩
    obtain ⟨s1, _, _, hx⟩ := M.bind_val hx
    exact hb.facts.2 _ _ _ hx
  unfold createBlock at hf ⊢
  by_cases hd : a.discardable = true
  · rw [if_pos hd]; exact hb
  · rw [if_neg hd] at hf ⊢
    split at hf
    · next l es t =>
      refine ⟨hf, ?_, by simp, fun hn e he => hb.2.2.2 hn e ?_⟩
      · rw [goodL_cons hb.2.2.1]
        exact ⟨ha.eff.mono (by intro x hx; exact List.mem_append_right _ hx) (fun h => h), hb.2.1⟩
      · cases es with
        | nil => exact absurd rfl hb.2.2.1
        | cons x xs => rw [List.getLast?_cons_cons] at he; exact he
    · refine ⟨hf, ?_, by simp, ?_⟩
      · rw [goodL_cons (by simp), goodL_one]
        exact ⟨ha.eff, hb.mono (fun _ hx => hx) below_true⟩
      · intro hn e he
        simp at he
        subst he
        exact hn

end

end Verif.Fold
