import Verif.CppStmt

/-!
# C93: statements are read in one way

`One.unique`; and what the text of a statement says about the jumps in it.
-/

namespace Verif.CppStmt

open Verif.CgText Verif.CgExpr Verif.CgStmt Verif.CppGram Verif.CgMean

theorem not_one_rbr {r c r'} : ¬ One (.rbr :: r) c r' := by intro h; cases h

theorem toks1_inj {a a' : Option (List Sym)} {x x' : List Tk} {tk : Tk} (hk : ∀ t, tk ≠ .x t)
    (h : toks1 a ++ tk :: x = toks1 a' ++ tk :: x') : a = a' ∧ x = x' := by
  cases a with
  | none => cases a' with
      | none => simp only [toks1, List.nil_append, List.cons.injEq, true_and] at h; exact ⟨rfl, h⟩
      | some t => simp only [toks1, List.nil_append, List.cons_append, List.cons.injEq] at h; exact absurd h.1 (hk t)
  | some t => cases a' with
      | none => simp only [toks1, List.nil_append, List.cons_append, List.cons.injEq] at h; exact absurd h.1.symm (hk t)
      | some t' =>
          simp only [toks1, List.nil_append, List.cons_append, List.cons.injEq, true_and, Tk.x.injEq] at h
          exact ⟨by rw [h.1], h.2⟩

/-- **The tokens start with one statement only.** -/
theorem One.unique {ts c r} (h : One ts c r) : ∀ c' r', One ts c' r' → c = c' ∧ r = r' := by
  refine One.rec (motive_1 := fun ts c r _ => ∀ c' r', One ts c' r' → c = c' ∧ r = r')
    (motive_2 := fun ts l r _ => r.head? = some .rbr → ∀ l' r', r'.head? = some .rbr → Many ts l' r' → l = l' ∧ r = r')
    ?_ ?_ ?_ ?_ ?_ ?_ ?_ ?_ ?_ ?_ ?_ ?_ ?_ ?_ ?_ ?_ ?_ h
  · intro t r c' r' h; cases h; exact ⟨rfl, rfl⟩
  · intro r c' r' h; cases h; exact ⟨rfl, rfl⟩
  · intro r c' r' h; cases h; exact ⟨rfl, rfl⟩
  · intro ts l r _ ih c' r' h
    cases h with
    | block h =>
        obtain ⟨h1, h2⟩ := ih rfl _ _ rfl h
        cases h2; exact ⟨by rw [h1], rfl⟩
  · intro t ts a r _ hne ih c' r' h
    cases h with
    | ite h _ => obtain ⟨h1, h2⟩ := ih _ _ h; exact ⟨by rw [h1], h2⟩
    | itel h _ => obtain ⟨h1, h2⟩ := ih _ _ h; subst h2; exact absurd rfl hne
  · intro t ts a ts' b r _ _ iha ihb c' r' h
    cases h with
    | ite h hne => obtain ⟨h1, h2⟩ := iha _ _ h; subst h2; exact absurd rfl hne
    | itel h hb =>
        obtain ⟨h1, h2⟩ := iha _ _ h
        cases h2
        obtain ⟨h3, h4⟩ := ihb _ _ hb
        exact ⟨by rw [h1, h3], h4⟩
  · intro t ts s r _ ih c' r' h
    cases h with
    | wh h => obtain ⟨h1, h2⟩ := ih _ _ h; exact ⟨by rw [h1], h2⟩
  · intro t ts s r _ ih c' r' h
    cases h with
    | dow h => obtain ⟨h1, h2⟩ := ih _ _ h; cases h2; exact ⟨by rw [h1], rfl⟩
  · intro a b c ts s r _ ih c' r' h
    generalize he : (Tk.kfor :: Tk.lp :: (toks1 a ++ Tk.semi :: (toks1 b ++ Tk.semi :: (toks1 c ++ Tk.rp :: ts)))) = e at h
    cases h with
    | for_ h =>
        simp only [List.cons.injEq, true_and] at he
        obtain ⟨h1, he1⟩ := toks1_inj (by intro t h; cases h) he
        obtain ⟨h2, he2⟩ := toks1_inj (by intro t h; cases h) he1
        obtain ⟨h3, he3⟩ := toks1_inj (by intro t h; cases h) he2
        subst h1 h2 h3 he3
        obtain ⟨h1, h2⟩ := ih _ _ h
        exact ⟨by rw [h1], h2⟩
    | _ => cases he
  · intro g r c' r' h; cases h; exact ⟨rfl, rfl⟩
  · intro g ts s r _ ih c' r' h
    cases h with
    | lab h => obtain ⟨h1, h2⟩ := ih _ _ h; exact ⟨by rw [h1], h2⟩
  · intro r c' r' h; cases h; exact ⟨rfl, rfl⟩
  · intro r c' r' h; cases h; exact ⟨rfl, rfl⟩
  · intro r c' r' h; cases h; exact ⟨rfl, rfl⟩
  · intro t r c' r' h; cases h; exact ⟨rfl, rfl⟩
  · intro ts hr l' r' hr' h
    cases h with
    | nil => exact ⟨rfl, rfl⟩
    | cons h1 h2 =>
        cases ts with
        | nil => cases hr
        | cons t ts => simp only [List.head?_cons, Option.some.injEq] at hr; subst hr; exact absurd h1 not_one_rbr
  · intro ts c r l r2 h1 h2 ih1 ih2 hr l' r' hr' h
    cases h with
    | nil =>
        cases ts with
        | nil => cases hr'
        | cons t ts => simp only [List.head?_cons, Option.some.injEq] at hr'; subst hr'; exact absurd h1 not_one_rbr
    | cons h3 h4 =>
        obtain ⟨e1, e2⟩ := ih1 _ _ h3
        subst e1 e2
        obtain ⟨e3, e4⟩ := ih2 hr _ _ hr' h4
        exact ⟨by rw [e3], e4⟩

theorem Many.append {ts l r} (h : Many ts l r) : ∀ {l' r'}, Many r l' r' → Many ts (l ++ l') r' := by
  induction l generalizing ts with
  | nil => intro l' r' h'; cases h; exact h'
  | cons c l ih =>
      intro l' r' h'
      cases h with
      | cons h1 h2 => exact .cons h1 (ih h2 h')

/-! ## Jumps -/

mutual
/-- The labels a statement jumps to. -/
def gotos : CS → List Lab
  | .seq l => gotosL l
  | .ite _ a => gotos a
  | .itel _ a b => gotos a ++ gotos b
  | .wh _ s | .dow s _ | .for_ _ _ _ s | .lab _ s => gotos s
  | .goto g => [g]
  | .ex _ | .skip | .brk | .cont | .ret _ => []
def gotosL : List CS → List Lab
  | [] => []
  | c :: r => gotos c ++ gotosL r
end

theorem goto_toks1 {g a} : Tk.goto g ∉ toks1 a := by cases a <;> simp [toks1]

/-- a statement jumps where its text says -/
theorem One.text {ts c r} (h : One ts c r) : ∃ p, ts = p ++ r ∧ ∀ g, Tk.goto g ∈ p ↔ g ∈ gotos c := by
  refine One.rec (motive_1 := fun ts c r _ => ∃ p, ts = p ++ r ∧ ∀ g, Tk.goto g ∈ p ↔ g ∈ gotos c)
    (motive_2 := fun ts l r _ => ∃ p, ts = p ++ r ∧ ∀ g, Tk.goto g ∈ p ↔ g ∈ gotosL l)
    ?_ ?_ ?_ ?_ ?_ ?_ ?_ ?_ ?_ ?_ ?_ ?_ ?_ ?_ ?_ ?_ ?_ h
  · intro t r; exact ⟨[.x t, .semi], rfl, by simp [gotos]⟩
  · intro r; exact ⟨[.decl, .semi], rfl, by simp [gotos]⟩
  · intro r; exact ⟨[.semi], rfl, by simp [gotos]⟩
  · rintro ts l r _ ⟨p, rfl, hp⟩
    exact ⟨.lbr :: (p ++ [.rbr]), by simp, by simp [gotos, hp]⟩
  · rintro t ts a r _ _ ⟨p, rfl, hp⟩
    exact ⟨[.kif, .lp, .x t, .rp] ++ p, by simp, by simp [gotos, hp]⟩
  · rintro t ts a ts' b r _ _ ⟨p, rfl, hp⟩ ⟨q, rfl, hq⟩
    exact ⟨[.kif, .lp, .x t, .rp] ++ p ++ .kelse :: q, by simp, by simp [gotos, hp, hq]⟩
  · rintro t ts s r _ ⟨p, rfl, hp⟩
    exact ⟨[.kwhile, .lp, .x t, .rp] ++ p, by simp, by simp [gotos, hp]⟩
  · rintro t ts s r _ ⟨p, rfl, hp⟩
    exact ⟨.kdo :: (p ++ [.kwhile, .lp, .x t, .rp, .semi]), by simp, by simp [gotos, hp]⟩
  · rintro a b c ts s r _ ⟨p, rfl, hp⟩
    exact ⟨[.kfor, .lp] ++ toks1 a ++ .semi :: (toks1 b ++ .semi :: (toks1 c ++ .rp :: p)), by simp,
      by simp [gotos, hp, goto_toks1]⟩
  · intro g r; exact ⟨[.goto g, .semi], rfl, by simp [gotos]⟩
  · rintro g ts s r _ ⟨p, rfl, hp⟩
    exact ⟨.label g :: p, rfl, by simp [gotos, hp]⟩
  · intro r; exact ⟨[.kbreak, .semi], rfl, by simp [gotos]⟩
  · intro r; exact ⟨[.kcont, .semi], rfl, by simp [gotos]⟩
  · intro r; exact ⟨[.kret, .semi], rfl, by simp [gotos]⟩
  · intro t r; exact ⟨[.kret, .x t, .semi], rfl, by simp [gotos]⟩
  · intro ts; exact ⟨[], rfl, by simp [gotosL]⟩
  · rintro ts c r l r' _ _ ⟨p, rfl, hp⟩ ⟨q, rfl, hq⟩
    exact ⟨p ++ q, by simp, by simp [gotosL, hp, hq]⟩

theorem Many.text {ts l r} (h : Many ts l r) : ∃ p, ts = p ++ r ∧ ∀ g, Tk.goto g ∈ p ↔ g ∈ gotosL l := by
  induction l generalizing ts with
  | nil => cases h; exact ⟨[], rfl, by simp [gotosL]⟩
  | cons c l ih =>
      cases h with
      | cons h1 h2 =>
          obtain ⟨p, rfl, hp⟩ := h1.text
          obtain ⟨q, rfl, hq⟩ := ih h2
          exact ⟨p ++ q, by simp, by simp [gotosL, hp, hq]⟩

variable {W : World}

theorem onTest_goto {t : Option (List Sym)} {k : Bool → Act W} {st o} (h : onTest t k st o) (ho : o ≠ .hang) :
    ∃ b st', k b st' o := by
  cases t with
  | none => exact ⟨true, st, h⟩
  | some t =>
      obtain ⟨r, _, h⟩ := h
      cases r with
      | none => exact absurd h ho
      | some x => exact ⟨_, _, h⟩

theorem onStep_goto {t : Option (List Sym)} {k : Act W} {st o} (h : onStep t k st o) (ho : o ≠ .hang) :
    ∃ st', k st' o := by
  cases t with
  | none => exact ⟨st, h⟩
  | some t =>
      obtain ⟨r, _, h⟩ := h
      cases r with
      | none => exact absurd h ho
      | some x => exact ⟨_, h⟩

/-- a loop jumps where its body jumps -/
theorem forN_goto {cond post : Option (List Sym)} {body : Act W} : ∀ {n st g st'},
    forN cond post body n st (.goto g st') → ∃ st1, body st1 (.goto g st')
  | 0, st, g, st', h => by
      obtain ⟨b, st1, h⟩ := onTest_goto h (by intro h; cases h)
      cases b <;> simp at h
  | n + 1, st, g, st', h => by
      obtain ⟨b, st1, h⟩ := onTest_goto h (by intro h; cases h)
      cases b with
      | false => simp at h
      | true =>
          rw [if_pos rfl] at h
          obtain ⟨o1, h1, h2⟩ := h
          cases o1 with
          | norm s => obtain ⟨s2, h3⟩ := onStep_goto h2 (by intro h; cases h); exact forN_goto h3
          | cont s => obtain ⟨s2, h3⟩ := onStep_goto h2 (by intro h; cases h); exact forN_goto h3
          | brk s => cases h2
          | goto g' s => cases h2; exact ⟨_, h1⟩
          | ret v s => cases h2
          | hang => cases h2
          | timeout => cases h2

theorem doN_goto {cond : List Sym} {body : Act W} : ∀ {n st g st'},
    doN body cond n st (.goto g st') → ∃ st1, body st1 (.goto g st')
  | 0, st, g, st', h => by cases h
  | n + 1, st, g, st', h => by
      obtain ⟨o1, h1, h2⟩ := h
      have key : ∀ s, onVal cond (fun v st2 o => if ctruth W v then doN body cond n st2 o else o = .norm st2) s (.goto g st') →
          ∃ st1, body st1 (.goto g st') := by
        rintro s ⟨r, _, h⟩
        cases r with
        | none => cases h
        | some x =>
            by_cases hx : ctruth W x.1 = true
            · simp only [hx, if_true] at h; exact doN_goto h
            · simp only [hx] at h; cases h
      cases o1 with
      | norm s => exact key s h2
      | cont s => exact key s h2
      | brk s => cases h2
      | goto g' s => cases h2; exact ⟨_, h1⟩
      | ret v s => cases h2
      | hang => cases h2
      | timeout => cases h2

mutual
theorem does_goto (rt : Ty) (n : Nat) : (c : CS) → ∀ st g st', does W rt n c st (.goto g st') → g ∈ gotos c
  | .ex t, st, g, st', h => by
      obtain ⟨r, _, h⟩ := h
      cases r <;> cases h
  | .skip, st, g, st', h => by cases h
  | .seq l, st, g, st', h => by
      rcases doesL_goto rt n l none st g st' h with h | h
      · exact h
      · cases h
  | .ite t a, st, g, st', h => by
      obtain ⟨r, _, h⟩ := h
      cases r with
      | none => cases h
      | some x =>
          by_cases hx : ctruth W x.1 = true
          · simp only [hx, if_true] at h; exact does_goto rt n a _ _ _ h
          · simp only [hx] at h; cases h
  | .itel t a b, st, g, st', h => by
      obtain ⟨r, _, h⟩ := h
      cases r with
      | none => cases h
      | some x =>
          simp only [gotos, List.mem_append]
          by_cases hx : ctruth W x.1 = true
          · simp only [hx, if_true] at h; exact Or.inl (does_goto rt n a _ _ _ h)
          · simp only [hx] at h; exact Or.inr (does_goto rt n b _ _ _ h)
  | .wh t s, st, g, st', h => by
      obtain ⟨st1, h⟩ := forN_goto h
      exact does_goto rt n s _ _ _ h
  | .dow s t, st, g, st', h => by
      obtain ⟨st1, h⟩ := doN_goto h
      exact does_goto rt n s _ _ _ h
  | .for_ a b c s, st, g, st', h => by
      obtain ⟨st1, h⟩ := onStep_goto h (by intro h; cases h)
      obtain ⟨st2, h⟩ := forN_goto h
      exact does_goto rt n s _ _ _ h
  | .goto g0, st, g, st', h => by cases h; simp [gotos]
  | .lab _ s, st, g, st', h => does_goto rt n s _ _ _ h
  | .brk, st, g, st', h => by cases h
  | .cont, st, g, st', h => by cases h
  | .ret none, st, g, st', h => by cases h
  | .ret (some t), st, g, st', h => by
      obtain ⟨r, _, h⟩ := h
      cases r with
      | none => cases h
      | some x =>
          cases hc : conv W rt x.1 with
          | none => simp only [hc] at h; obtain ⟨_, _, h⟩ := h; cases h
          | some v => simp only [hc] at h; cases h
theorem doesL_goto (rt : Ty) (n : Nat) : (l : List CS) → ∀ seek st g st', doesL W rt n l seek st (.goto g st') →
    g ∈ gotosL l ∨ seek = some g
  | [], none, st, g, st', h => by cases h
  | [], some g0, st, g, st', h => by cases h; exact Or.inr rfl
  | c :: r, seek, st, g, st', h => by
      rw [doesL] at h
      simp only [gotosL, List.mem_append]
      by_cases hs : seek.isSome ∧ seek ≠ c.label
      · rw [if_pos hs] at h
        rcases doesL_goto rt n r seek st g st' h with h | h
        · exact Or.inl (Or.inr h)
        · exact Or.inr h
      · rw [if_neg hs] at h
        obtain ⟨o1, h1, h2⟩ := h
        left
        cases o1 with
        | norm s =>
            rcases doesL_goto rt n r none s g st' h2 with h | h
            · exact Or.inr h
            · cases h
        | goto g' s =>
            rcases doesL_goto rt n r (some g') s g st' h2 with h | h
            · exact Or.inr h
            · cases h; exact Or.inl (does_goto rt n c _ _ _ h1)
        | cont s => cases h2
        | brk s => cases h2
        | ret v s => cases h2
        | hang => cases h2
        | timeout => cases h2
end

end Verif.CppStmt
