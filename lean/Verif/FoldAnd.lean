import Verif.FoldMean
/-! # Folding `&&` and `||` keeps their meaning -/
namespace Verif.Fold

section
variable {S T J : Type} {I : Sem S T J}

/-- Every value is truthy. -/
def Tru (x : M S T J) : Prop := ∀ s s' v, x s = some (s', .val v) → v.isSome = true
/-- Every value is falsy. -/
def Fals (x : M S T J) : Prop := ∀ s s' v, x s = some (s', .val v) → v = none

theorem absEval_true {t : Ty} {b : Bool} (h : absEval t b = .ok .isTrue) : t.aT = true := by
  unfold absEval at h
  cases h1 : t.aT
  · exfalso
    rw [h1] at h
    cases h2 : t.aF
    · rw [h2] at h
      cases h3 : t.irrelevant <;> cases b <;> simp [h3] at h
    · simp [h2] at h
  · rfl

theorem absEval_false {t : Ty} (h : absEval t false = .ok .isFalse) : t.aF = true := by
  unfold absEval at h
  cases h1 : t.aF
  · exfalso
    rw [h1] at h
    cases h2 : t.aT
    · rw [h2] at h
      cases h3 : t.irrelevant <;> simp [h3] at h
    · simp [h2] at h
  · rfl

theorem FactsAt.tru {t : Ty} {x : M S T J} (h : FactsAt true t x) (ht : t.aT = true) : Tru x := by
  intro s s' v hx
  have := ((h.2 s s' v hx).2 rfl).1 ht
  cases v
  · exact absurd rfl this
  · rfl

theorem FactsAt.fals {t : Ty} {x : M S T J} (h : FactsAt true t x) (ht : t.aF = true) : Fals x :=
  fun s s' v hx => ((h.2 s s' v hx).2 rfl).2.1 ht

theorem FactsAt.noVal {k : Bool} {t : Ty} {x : M S T J} (h : FactsAt k t x) (ht : t.isNever = true) (s s' : S) (v : Option T) :
    x s ≠ some (s', .val v) := by
  intro hx
  have := (h.2 s s' v hx).1
  rw [ht] at this
  cases this

/-- `&&` or `||`. -/
def comb (isAnd : Bool) (xs : List (M S T J)) : M S T J := if isAnd then M.and xs else M.or xs

theorem comb_one (k : Bool) (x : M S T J) : comb k [x] = x := by cases k <;> rfl

theorem comb_append (k : Bool) (xs ys : List (M S T J)) (h : ys ≠ []) : comb k (xs ++ ys) = comb k (xs ++ [comb k ys]) := by
  cases k
  · exact M.or_append xs ys h
  · exact M.and_append xs ys h

/-- The operand that changes nothing: always true in `&&`, always false in `||`. -/
def Pass (k : Bool) (x : M S T J) : Prop := if k then Tru x else Fals x
/-- The operand after which nothing is run: always false in `&&`, always true in `||`. -/
def Halt (k : Bool) (x : M S T J) : Prop := if k then Fals x else Tru x

theorem comb_pass {k : Bool} {x y : M S T J} {ys : List (M S T J)} (h : Pass k x) : comb k (x :: y :: ys) = comb k (x.seq y :: ys) := by
  cases k
  · show M.or _ = M.or _
    have h : Fals x := h
    rw [M.or_cons (by simp)]
    cases ys with
    | nil =>
      show _ = x.bind fun _ => y
      refine M.bind_congr fun s s' v hx => ?_
      rw [h _ _ _ hx]; rfl
    | cons z zs =>
      rw [M.or_cons (x := y) (xs := z :: zs) (by simp), M.or_cons (x := x.seq y) (xs := z :: zs) (by simp)]
      unfold M.seq
      rw [M.bind_assoc]
      refine M.bind_congr fun s s' v hx => ?_
      rw [h _ _ _ hx]; rfl
  · show M.and _ = M.and _
    have h : Tru x := h
    rw [M.and_cons (by simp)]
    cases ys with
    | nil =>
      show _ = x.bind fun _ => y
      refine M.bind_congr fun s s' v hx => ?_
      rw [if_pos (h _ _ _ hx)]; rfl
    | cons z zs =>
      rw [M.and_cons (x := y) (xs := z :: zs) (by simp), M.and_cons (x := x.seq y) (xs := z :: zs) (by simp)]
      unfold M.seq M.ite
      rw [M.bind_assoc]
      refine M.bind_congr fun s s' v hx => ?_
      rw [if_pos (h _ _ _ hx)]

theorem comb_halt {k : Bool} {x : M S T J} (h : Halt k x) (ys : List (M S T J)) : comb k (x :: ys) = x := by
  cases ys with
  | nil => exact comb_one k x
  | cons y ys =>
    cases k
    · show M.or _ = _
      have h : Tru x := h
      rw [M.or_cons (by simp)]
      refine (M.bind_congr fun s s' v hx => ?_).trans (M.bind_pure x)
      rw [if_pos (h _ _ _ hx)]
    · show M.and _ = _
      have h : Fals x := h
      rw [M.and_cons (by simp)]
      refine (M.bind_congr fun s s' v hx => ?_).trans (M.bind_pure x)
      rw [h _ _ _ hx]; rfl

theorem comb_cut {k : Bool} {xs ys : List (M S T J)} {x : M S T J} (h : Halt k x) : comb k (xs ++ x :: ys) = comb k (xs ++ [x]) := by
  rw [comb_append k xs (x :: ys) (by simp), comb_halt h]

theorem Uniq.mono {Γ : List Nat} {f g : Nat → Nat} (h : Uniq Γ f) (hle : ∀ l, g l ≤ f l) : Uniq Γ g := by
  intro l
  have := h l
  have := hle l
  exact ⟨by omega, fun hl => by have := (h l).2 hl; omega⟩

theorem cnt_le_cntL {l : Nat} {e : E} {es : List E} (h : e ∈ es) : cnt l e ≤ cntL l es := by
  induction es with
  | nil => cases h
  | cons x xs ih =>
    rw [cntL]
    rcases List.mem_cons.1 h with rfl | h
    · omega
    · have := ih h; omega

/-- Operands: all but the last are conditions. -/
structure Items (I : Sem S T J) (Γ : List Nat) (look : Bool) (es : List E) : Prop where
  good : GoodL I Γ true look es
  ne : es ≠ []
  uniq : Uniq Γ fun l => cntL l es

theorem Items.mid {Γ : List Nat} {look : Bool} {a b : List E} {p : E} (h : Items I Γ look (a ++ p :: b)) (hb : b ≠ []) : Good I Γ true p :=
  ((goodL_cons hb).1 ((goodL_append (by simp)).1 h.good).2).1

theorem Items.take {Γ : List Nat} {look : Bool} {a b : List E} {p : E} (h : Items I Γ look (a ++ p :: b)) : Items I Γ look (a ++ [p]) where
  good := by
    have h1 := (goodL_append (by simp)).1 h.good
    refine (goodL_append (by simp)).2 ⟨h1.1, goodL_one.2 ?_⟩
    cases b with
    | nil => exact goodL_one.1 h1.2
    | cons c b => exact (((goodL_cons (by simp)).1 h1.2).1).low
  ne := by simp
  uniq := h.uniq.mono fun l => by simp [cntL_append, cntL]

/-- One operand is put into the next. -/
theorem Items.merge {Γ : List Nat} {look : Bool} {a b : List E} {p q : E} (h : Items I Γ look (a ++ p :: q :: b)) :
    Items I Γ look (a ++ createBlock p q :: b) ∧ (createBlock p q).mean I = (p.mean I).seq (q.mean I) := by
  have h1 := (goodL_append (by simp)).1 h.good
  have hp := (goodL_cons (by simp)).1 h1.2
  have hu : Uniq Γ fun l => cnt l q := h.uniq.mono fun l => cnt_le_cntL (by simp)
  refine ⟨⟨?_, by simp, ?_⟩, createBlock_mean hp.1 hp.2.1 hu⟩
  · exact (goodL_append (by simp)).2 ⟨h1.1, createBlock_good hp.1 hp.2.1 hu, hp.2.2⟩
  · refine h.uniq.mono fun l => ?_
    have := cnt_createBlock l p q
    simp [cntL_append, cntL]
    omega

/-- The value of a condition that folds. -/
def passSE (k : Bool) : SE := if k then .isTrue else .isFalse
/-- The value of a condition after which nothing is run. -/
def haltSE (k : Bool) : SE := if k then .isFalse else .isTrue

theorem pass_of {k : Bool} {e : E} {Γ : List Nat} (hg : Good I Γ true e) (h : absEval e.ty false = .ok (passSE k)) : Pass k (e.mean I) := by
  cases k
  · exact hg.facts.fals (absEval_false h)
  · exact hg.facts.tru (absEval_true h)

theorem halt_of {k : Bool} {e : E} {Γ : List Nat} (hg : Good I Γ true e) (h : absEval e.ty false = .ok (haltSE k)) : Halt k (e.mean I) := by
  cases k
  · exact hg.facts.tru (absEval_true h)
  · exact hg.facts.fals (absEval_false h)

theorem halt_never {k look : Bool} {e : E} {Γ : List Nat} (hg : Good I Γ look e) (h : e.ty.isNever = true) : Halt k (e.mean I) := by
  cases k
  · intro s s' v hx; exact absurd hx (hg.facts.noVal h _ _ _)
  · intro s s' v hx; exact absurd hx (hg.facts.noVal h _ _ _)

theorem Halt.seq {k : Bool} {x y : M S T J} (h : Halt k y) : Halt k (x.seq y) := by
  cases k
  · intro s s' v hv
    obtain ⟨_, _, _, h2⟩ := M.bind_val hv
    exact h _ _ _ h2
  · intro s s' v hv
    obtain ⟨_, _, _, h2⟩ := M.bind_val hv
    exact h _ _ _ h2

/-- The place to trim at is after an operand after which nothing is run. -/
def TrimOk (I : Sem S T J) (k : Bool) (trim : Nat) (es : List E) : Prop :=
  trim ≠ 0 → ∃ a p b, es = a ++ p :: b ∧ a.length + 1 = trim ∧ Halt k (p.mean I)

theorem split_at {α : Type} {l : List α} {i : Nat} {x : α} (h : l[i]? = some x) : ∃ a b, l = a ++ x :: b ∧ a.length = i := by
  induction l generalizing i with
  | nil => simp at h
  | cons y l ih =>
    cases i with
    | zero => simp at h; subst h; exact ⟨[], l, rfl, rfl⟩
    | succ i =>
      simp at h
      obtain ⟨a, b, rfl, h2⟩ := ih h
      exact ⟨y :: a, b, rfl, by simp [h2]⟩

theorem foldLoop_ok {Γ : List Nat} {k look : Bool} : ∀ (i : Nat) (es : List E) (trim : Nat) (es' : List E) (trim' : Nat),
    Items I Γ look es → i < es.length → TrimOk I k trim es → (trim ≠ 0 → i < trim) →
    foldLoop (passSE k) i es trim = .ok (es', trim') →
    Items I Γ look es' ∧ comb k (means I es') = comb k (means I es) ∧ TrimOk I k trim' es' ∧ (∀ l, cntL l es' ≤ cntL l es)
  | 0, es, trim, es', trim', h, _, ht, _, e => by
    rw [foldLoop] at e
    injection e with e
    injection e with e1 e2
    subst e1 e2
    exact ⟨h, rfl, ht, fun _ => Nat.le_refl _⟩
  | i + 1, es, trim, es', trim', h, hi, ht, hti, e => by
    rw [foldLoop] at e
    have hx : es[i]? = some (es[i]'(by omega)) := by simp [show i < es.length by omega]
    obtain ⟨a, b, hab, hal⟩ := split_at hx
    rw [hx] at e
    generalize hpe : es[i]'(by omega) = p at e hab
    obtain ⟨q, b', rfl⟩ : ∃ q b', b = q :: b' := by
      cases b with
      | nil => exfalso; rw [hab] at hi; simp [hal] at hi
      | cons q b' => exact ⟨q, b', rfl⟩
    have h' := h
    rw [hab] at h'
    have hgp : Good I Γ true p := h'.mid (by simp)
    dsimp only at e
    cases hae : absEval p.ty false with
    | error x => rw [hae] at e; cases e
    | ok se =>
      rw [hae] at e
      dsimp only at e
      by_cases c1 : se = passSE k
      · rw [if_pos c1] at e
        subst c1
        have hm : mergeAt es i = .ok (a ++ createBlock p q :: b') := by
          unfold mergeAt
          rw [hab, ← hal, List.drop_left, List.take_left]
        rw [hm] at e
        dsimp only at e
        have hp := pass_of hgp hae
        obtain ⟨hmm, hmean⟩ := h'.merge
        have hi' : i < (a ++ createBlock p q :: b').length := by simp [hal]
        have ht' : TrimOk I k (trim - 1) (a ++ createBlock p q :: b') := by
          intro hne
          obtain ⟨a1, r, b1, r1, r2, r3⟩ := ht (by omega)
          have hlt := hti (by omega)
          have hlen : i < a1.length := by omega
          rw [hab] at r1
          have : ∃ c, a1 = a ++ p :: c ∧ q :: b' = c ++ r :: b1 := by
            have := List.append_eq_append_iff.1 r1
            rcases this with ⟨as, e1, e2⟩ | ⟨bs, e1, e2⟩
            · cases as with
              | nil => exfalso; rw [e1] at hlen; simp [hal] at hlen
              | cons z zs =>
                injection e2 with e2 e3
                subst e2
                exact ⟨zs, e1, e3⟩
            · exfalso
              have : a.length = a1.length + bs.length := by rw [e1]; simp
              omega
          obtain ⟨c, e1, e2⟩ := this
          cases c with
          | nil =>
            injection e2 with e2 e3
            subst e2 e3
            refine ⟨a, _, b', rfl, ?_, ?_⟩
            · rw [e1] at r2; simp at r2; omega
            · rw [hmean]; exact r3.seq
          | cons z zs =>
            injection e2 with e2 e3
            subst e2
            refine ⟨a ++ createBlock p q :: zs, r, b1, ?_, ?_, r3⟩
            · rw [e3]; simp
            · rw [e1] at r2; simp at r2 ⊢; omega
        obtain ⟨g2, g3, g4, g5⟩ := foldLoop_ok i _ (trim - 1) es' trim' hmm hi' ht' (fun hne => by have := hti (by omega); omega) e
        refine ⟨g2, ?_, g4, fun l => ?_⟩
        · rw [g3, hab]
          simp only [means_append, means_cons]
          rw [comb_append k _ (p.mean I :: _) (by simp), comb_append k _ ((createBlock p q).mean I :: _) (by simp), comb_pass hp, hmean]
        · refine Nat.le_trans (g5 l) ?_
          have := cnt_createBlock l p q
          rw [hab]
          simp [cntL_append, cntL]
          omega
      · rw [if_neg c1] at e
        by_cases c2 : se = .unknown
        · rw [if_neg (by simp [c2])] at e
          exact foldLoop_ok i es trim es' trim' h (by omega) ht (fun hne => by have := hti hne; omega) e
        · rw [if_pos c2] at e
          refine foldLoop_ok i es (i + 1) es' trim' h (by omega) ?_ (fun _ => by omega) e
          intro _
          refine ⟨a, p, q :: b', hab, by omega, halt_of hgp ?_⟩
          rw [hae]
          cases k <;> cases se <;> first | rfl | exact absurd rfl c1 | exact absurd rfl c2

theorem staticEvalFold_ok {Γ : List Nat} {k look : Bool} {es es' : List E} {trim' : Nat}
    (h : Items I Γ look es) (e : staticEvalFold (passSE k) es = .ok (es', trim')) :
    Items I Γ look es' ∧ comb k (means I es') = comb k (means I es) ∧ TrimOk I k trim' es' ∧ (∀ l, cntL l es' ≤ cntL l es) := by
  unfold staticEvalFold at e
  have : 0 < es.length := List.length_pos_iff.2 h.ne
  exact foldLoop_ok _ es 0 es' trim' h (by omega) (fun hh => absurd rfl hh) (fun hh => absurd rfl hh) e

/-- Trimmed, nothing is lost. If it was the last operand stops it. -/
theorem staticEvalTrim_ok {Γ : List Nat} {k look : Bool} {es : List E} {trim : Nat} (h : Items I Γ look es) (ht : TrimOk I k trim es) :
    Items I Γ look (staticEvalTrim trim es) ∧ comb k (means I (staticEvalTrim trim es)) = comb k (means I es) ∧
    (∀ l, cntL l (staticEvalTrim trim es) ≤ cntL l es) ∧
    (trim ≠ 0 → ∃ a p, staticEvalTrim trim es = a ++ [p] ∧ Halt k (p.mean I)) := by
  unfold staticEvalTrim
  by_cases c : trim = 0
  · simp only [c, ne_eq, not_true, if_false]
    exact ⟨h, trivial, fun _ => Nat.le_refl _, fun hh => hh.elim⟩
  · rw [if_pos c]
    obtain ⟨a, p, b, rfl, h2, h3⟩ := ht c
    have e1 : (a ++ p :: b).take trim = a ++ [p] := by
      rw [← h2, show a ++ p :: b = (a ++ [p]) ++ b by simp, List.take_left' (by simp)]
    rw [e1]
    refine ⟨h.take, ?_, fun l => ?_, fun _ => ⟨a, p, rfl, h3⟩⟩
    · rw [means_append, means_append, means_cons, means_cons, means_nil]; exact (comb_cut h3).symm
    · simp [cntL_append, cntL]

end

end Verif.Fold
