import Verif.StmtLoop

/-!
# C93: loops with `on enter` are rewritten to loops without

`flat` changes neither what a statement does (`exec_flat`) nor that the emitter gets it right
(`ok_flat`).
-/

namespace Verif.StmtSim

open Verif.CgText Verif.CgExpr Verif.CgStmt Verif.CppGram Verif.CgMean Verif.CppStmt Verif.StmtRun Verif.StmtEval
  Verif.StmtRel Verif.StmtText

variable {W : World} {rt : Ty}

theorem flatL_eq (l : List S) : flatL l = l.map flat := by
  induction l with
  | nil => rfl
  | cons s r ih => rw [flatL, ih]; rfl

theorem flatL_ne {l : List S} (h : l ≠ []) : flatL l ≠ [] := by
  rw [flatL_eq]; simpa using h

theorem jumpsL_append (h : Nat) (a b : List S) : jumpsL h (a ++ b) = (jumpsL h a || jumpsL h b) := by
  induction a with
  | nil => simp [jumpsL]
  | cons s r ih => simp [jumpsL, ih, Bool.or_assoc]

theorem farL_append (h : Nat) (i : Bool) (a b : List S) : farL h i (a ++ b) = (farL h i a || farL h i b) := by
  induction a with
  | nil => simp [farL]
  | cons s r ih => simp [farL, ih, Bool.or_assoc]

theorem jumpsL_init (h : Nat) (e : Option N) : jumpsL h (initS e) = false := by
  cases e <;> simp [initS, jumpsL, jumps]

theorem farL_init (h : Nat) (i : Bool) (e : Option N) : farL h i (initS e) = false := by
  cases e <;> simp [initS, farL, far]

mutual
theorem jumps_flat (h : Nat) : (s : S) → jumps h (flat s) = jumps h s
  | .ite c a b => by simp only [flat, jumps, jumps_flat h a, jumps_flat h b]
  | .and cs s => by simp only [flat, jumps, jumps_flat h s]
  | .or cs s => by simp only [flat, jumps, jumps_flat h s]
  | .block hb items => by simp only [flat, jumps, jumpsL_flat h items]
  | .loop hl i c b p q => by simp only [flat, jumps, jumps_flat h b]
  | .enter hl i c hp pre b p q => by
      cases c <;>
        simp [flat, enterS, jumps, jumpsL, jumpsL_append, jumpsL_init, jumps_flat h b, jumpsL_flat h pre]
  | .expr e => rfl
  | .empty => rfl
  | .jump x e => rfl
theorem jumpsL_flat (h : Nat) : (l : List S) → jumpsL h (flatL l) = jumpsL h l
  | [] => rfl
  | s :: r => by simp only [flatL, jumpsL, jumps_flat h s, jumpsL_flat h r]
end

mutual
theorem far_flat (h : Nat) (i : Bool) : (s : S) → far h i (flat s) = far h i s
  | .ite c a b => by simp only [flat, far, far_flat h i a, far_flat h i b]
  | .and cs s => by simp only [flat, far, far_flat h i s]
  | .or cs s => by simp only [flat, far, far_flat h i s]
  | .block hb items => by simp only [flat, far, farL_flat h i items]
  | .loop hl _ c b p q => by simp only [flat, far, far_flat h true b]
  | .enter hl _ c hp pre b p q => by
      cases c <;>
        simp [flat, enterS, far, farL, farL_append, farL_init, far_flat h true b, farL_flat h i pre]
  | .expr e => rfl
  | .empty => rfl
  | .jump x e => rfl
theorem farL_flat (h : Nat) (i : Bool) : (l : List S) → farL h i (flatL l) = farL h i l
  | [] => rfl
  | s :: r => by simp only [flatL, farL, far_flat h i s, farL_flat h i r]
end

theorem noEnterL_append (a b : List S) : noEnterL (a ++ b) = (noEnterL a && noEnterL b) := by
  induction a with
  | nil => simp [noEnterL]
  | cons s r ih => simp [noEnterL, ih, Bool.and_assoc]

theorem noEnterL_init (e : Option N) : noEnterL (initS e) = true := by
  cases e <;> simp [initS, noEnterL, noEnter]

mutual
/-- none is left -/
theorem noEnter_flat : (s : S) → noEnter (flat s) = true
  | .ite c a b => by simp only [flat, noEnter, noEnter_flat a, noEnter_flat b, Bool.and_self]
  | .and cs s => by simp only [flat, noEnter, noEnter_flat s]
  | .or cs s => by simp only [flat, noEnter, noEnter_flat s]
  | .block hb items => by simp only [flat, noEnter, noEnterL_flat items]
  | .loop hl _ c b p q => by simp only [flat, noEnter, noEnter_flat b]
  | .enter hl _ c hp pre b p q => by
      cases c <;>
        simp [flat, enterS, noEnter, noEnterL, noEnterL_append, noEnterL_init, noEnter_flat b, noEnterL_flat pre]
  | .expr e => rfl
  | .empty => rfl
  | .jump x e => rfl
theorem noEnterL_flat : (l : List S) → noEnterL (flatL l) = true
  | [] => rfl
  | s :: r => by simp only [flatL, noEnterL, noEnter_flat s, noEnterL_flat r, Bool.and_self]
end

/-! ## It does the same -/

theorem execL_append (n : Nat) (a b : List S) (s : W.σ) : execL W n (a ++ b) s = (execL W n a s).after (execL W n b) := by
  induction a generalizing s with
  | nil => rfl
  | cons x r ih =>
      simp only [List.cons_append, execL]
      cases exec W n x s with
      | norm s' => simp only [Out.after]; exact ih s'
      | _ => rfl

theorem caught_ne {σ : Type} {h : Option Nat} {o : Out σ} (hne : ∀ x v s, h = some x → o ≠ .leave x v s) : caught h o = o := by
  cases o with
  | leave x v s =>
      simp only [caught]
      rw [if_neg]
      intro hx
      exact hne x v s hx rfl
  | _ => rfl

theorem caught_after {σ : Type} {h : Option Nat} {o : Out σ} {k : σ → Out σ} (hne : ∀ x v s, h = some x → o ≠ .leave x v s) :
    caught h (o.after k) = o.after fun s => caught h (k s) := by
  cases o with
  | norm s => rfl
  | leave x v s =>
      simp only [Out.after]
      exact caught_ne hne
  | _ => rfl

theorem steps_init (n : Nat) (e : Option N) (k : W.σ → Out W.σ) (s : W.σ) :
    steps W e.toList k s = (execL W n (initS e) s).after k := by
  cases e with
  | none => rfl
  | some e =>
      simp only [Option.toList_some, steps, initS, execL, exec]
      cases CgMean.run W e s <;> rfl

theorem guard_swap (c : Option N) (k : W.σ → Out W.σ) : StmtRun.guard W c (StmtRun.guard W none k) = StmtRun.guard W none (StmtRun.guard W c k) := rfl

theorem turns_swap (body : W.σ → Out W.σ) (post : List N) (c : Option N) : ∀ n, turns W body post c none n = turns W body post none c n
  | 0 => rfl
  | n + 1 => by
      funext s
      simp only [turns]
      rw [turns_swap body post c n, guard_swap]

theorem after_assoc {σ : Type} (o : Out σ) (f g : σ → Out σ) : (o.after f).after g = o.after fun s => (f s).after g := by
  cases o <;> rfl

theorem after_norm {σ : Type} (o : Out σ) : o.after .norm = o := by cases o <;> rfl

theorem after_congr {σ : Type} (o : Out σ) {f g : σ → Out σ} (h : ∀ s, f s = g s) : o.after f = o.after g := by
  rw [show f = g from funext h]

/-- entering and looping, all in the block -/
theorem entered (n : Nat) {h : Nat} {hp : Option Nat} {pre : List S} {body : S} {post : List N} {pcond : Option N}
    (hpre : jumpsL h pre = false) (hh : ∀ x, hp = some x → jumpsL x pre = false ∧ jumps x body = false) (s : W.σ) :
    caught hp (execL W n (pre ++ [.loop h none none body post pcond]) s) =
      caught (some h) ((caught hp (execL W n pre s)).after (turns W (exec W n body) post pcond none n)) := by
  have hl : ∀ x v s s', hp = some x → execL W n pre s ≠ .leave x v s' := fun x v s s' hx he => by
    have := leave_jumpsL W n pre _ _ _ _ he
    rw [(hh x hx).1] at this; cases this
  have e1 : caught hp (execL W n pre s) = execL W n pre s := caught_ne fun x v s' hx => hl x v s s' hx
  rw [e1, execL_append, caught_after fun x v s' hx => hl x v s s' hx, caught_after]
  · refine after_congr _ fun s' => ?_
    simp only [execL]
    have e2 : (exec W n (.loop h none none body post pcond) s').after (fun s => .norm s) = exec W n (.loop h none none body post pcond) s' :=
      after_norm _
    rw [e2]
    have e3 : exec W n (.loop h none none body post pcond) s' = caught (some h) (turns W (exec W n body) post pcond none n s') := by
      rw [exec]; rfl
    rw [e3]
    refine caught_ne fun x v s2 hx he => ?_
    have : jumps x (.loop h none none body post pcond) = true := leave_jumps W n _ _ _ _ _ (e3.trans he)
    rw [jumps, (hh x hx).2] at this; cases this
  · intro x v s' hx he
    cases hx
    have := leave_jumpsL W n pre _ _ _ _ he
    rw [hpre] at this; cases this

theorem exec_enterS (n : Nat) {h : Nat} {init cond : Option N} {hp : Option Nat} {pre : List S} {body : S} {post : List N} {pcond : Option N}
    (hpre : jumpsL h pre = false) (hh : ∀ x, hp = some x → jumpsL x pre = false ∧ jumps x body = false)
    (hc : cond.isSome = true → pcond = none) (s : W.σ) :
    exec W n (enterS h init cond hp pre body post pcond) s = exec W n (.enter h init cond hp pre body post pcond) s := by
  have hi : ∀ x v s s', execL W n (initS init) s ≠ .leave x v s' := fun x v s s' he => by
    have := leave_jumpsL W n _ _ _ _ _ he
    rw [jumpsL_init] at this; cases this
  rw [exec, steps_init n]
  cases cond with
  | none =>
      simp only [enterS, exec]
      rw [execL_append, caught_after fun x v s' _ => hi x v s s', caught_after fun x v s' _ => hi x v s s']
      exact after_congr _ fun s' => entered n hpre hh s'
  | some c =>
      have hq := hc rfl
      subst hq
      simp only [enterS, exec]
      rw [execL_append, caught_after fun x v s' _ => hi x v s s', caught_after fun x v s' _ => hi x v s s']
      refine after_congr _ fun s' => ?_
      simp only [execL, StmtRun.guard]
      have e2 : (exec W n (.and [c] (.block hp (pre ++ [.loop h none none body post (some c)]))) s').after (fun s => .norm s) = _ := after_norm _
      rw [e2]
      simp only [exec, allTrue]
      cases CgMean.run W c s' with
      | none => rfl
      | some x =>
          simp only [Option.bind_some, andThen]
          cases truth W x.1 with
          | false => rfl
          | true =>
              simp only [if_true]
              have := entered (W := W) n (post := post) (pcond := some c) hpre hh x.2
              rw [turns_swap] at this
              rw [this]
              refine caught_ne fun y v s2 hy he => ?_
              have hj := caught_leave he
              rcases after_leave hj with h1 | ⟨s3, h1⟩
              · have h1 := leave_jumpsL W n pre _ _ _ _ (caught_leave h1)
                rw [(hh y hy).1] at h1; cases h1
              · obtain ⟨s4, h1⟩ := turns_leave h1
                have h1 := leave_jumps W n body _ _ _ _ h1
                rw [(hh y hy).2] at h1; cases h1

/-! ## It is as good -/

theorem ok_set_aux {ret : Nat} : ∀ (N : Nat) (s : S), sizeOf s < N → ∀ hs hs' : List Nat, (∀ x, x ∈ hs ↔ x ∈ hs') →
    ok W ret rt hs s → ok W ret rt hs' s := by
  intro N
  induction N with
  | zero => intro s h; omega
  | succ N ih =>
      have hL : ∀ (l : List S), sizeOf l < N → ∀ hs hs' : List Nat, (∀ x, x ∈ hs ↔ x ∈ hs') → okL W ret rt hs l → okL W ret rt hs' l := by
        intro l
        induction l with
        | nil => intro _ _ _ _ _; rw [okL]; trivial
        | cons s r ihl =>
            intro hz hs hs' hm h
            simp only [List.cons.sizeOf_spec] at hz
            rw [okL] at h ⊢
            exact ⟨ih s (by omega) _ _ hm h.1, ihl (by omega) _ _ hm h.2⟩
      intro s hN hs hs' hm hok
      have hf : ∀ h left, fresh h hs left → fresh h hs' left := fun h left hf x hx => by
        rcases hf x hx with h1 | h1
        · exact Or.inl fun h2 => h1 ((hm x).2 h2)
        · exact Or.inr h1
      cases s with
      | expr e => rw [ok] at hok ⊢; exact hok
      | empty => rw [ok]; trivial
      | jump h e => rw [ok] at hok ⊢; exact ⟨(hm h).1 hok.1, hok.2⟩
      | ite c a b =>
          simp only [S.ite.sizeOf_spec] at hN
          rw [ok] at hok ⊢
          obtain ⟨h1, h2, h3, h4, h5, h6⟩ := hok
          exact ⟨h1, h2, h3, ih a (by omega) _ _ hm h4, ih b (by omega) _ _ hm h5, h6⟩
      | and cs b =>
          simp only [S.and.sizeOf_spec] at hN
          rw [ok] at hok ⊢
          obtain ⟨h1, h2, h3, h4⟩ := hok
          exact ⟨h1, h2, h3, ih b (by omega) _ _ hm h4⟩
      | or cs b =>
          simp only [S.or.sizeOf_spec] at hN
          rw [ok] at hok ⊢
          obtain ⟨h1, h2, h3, h4⟩ := hok
          exact ⟨h1, h2, h3, ih b (by omega) _ _ hm h4⟩
      | block h items =>
          simp only [S.block.sizeOf_spec] at hN
          rw [ok] at hok ⊢
          exact ⟨hf _ _ hok.1, hL items (by omega) _ _ (fun x => by simp only [List.mem_append, hm]) hok.2⟩
      | loop h init cond body post pcond =>
          simp only [S.loop.sizeOf_spec] at hN
          rw [ok] at hok ⊢
          obtain ⟨h1, h2, h3, h4, h5, h6, h7, h8⟩ := hok
          exact ⟨fun hx => h1 ((hm h).2 hx), h2, h3, h4, h5, h6, ih body (by omega) _ _ (fun x => by simp only [List.mem_cons, hm]) h7, h8⟩
      | enter h init cond hp pre body post pcond =>
          simp only [S.enter.sizeOf_spec] at hN
          rw [ok] at hok ⊢
          obtain ⟨h0, h1, h2, h3, h4, h5, h6, h7, h8, h9, h10, h11⟩ := hok
          refine ⟨h0, fun hx => h1 ((hm h).2 hx), fun x hx => ?_, h3, h4, h5, h6, h7, ?_, h9, ?_, h11⟩
          · obtain ⟨a, b, c⟩ := h2 x hx
            exact ⟨a, fun h' => b ((hm x).2 h'), c⟩
          · exact hL pre (by omega) _ _ (fun x => by simp only [List.mem_append, hm]) h8
          · exact ih body (by omega) _ _ (fun x => by simp only [List.mem_cons, List.mem_append, hm]) h10

theorem okL_append {ret : Nat} {hs : List Nat} (a b : List S) : okL W ret rt hs (a ++ b) ↔ okL W ret rt hs a ∧ okL W ret rt hs b := by
  induction a with
  | nil => simp [okL]
  | cons s r ih => simp only [List.cons_append, okL, ih]; exact ⟨fun ⟨a, b, c⟩ => ⟨⟨a, b⟩, c⟩, fun ⟨⟨a, b⟩, c⟩ => ⟨a, b, c⟩⟩

theorem okL_set {ret : Nat} {hs hs' : List Nat} (hm : ∀ x, x ∈ hs ↔ x ∈ hs') {l : List S} (h : okL W ret rt hs l) : okL W ret rt hs' l := by
  induction l with
  | nil => rw [okL]; trivial
  | cons s r ih => rw [okL] at h ⊢; exact ⟨ok_set_aux _ s (Nat.lt_succ_self _) _ _ hm h.1, ih h.2⟩

theorem ok_set {ret : Nat} {hs hs' : List Nat} (hm : ∀ x, x ∈ hs ↔ x ∈ hs') {s : S} (h : ok W ret rt hs s) : ok W ret rt hs' s :=
  ok_set_aux _ s (Nat.lt_succ_self _) _ _ hm h

theorem okL_init {ret : Nat} {hs : List Nat} {e : Option N} (h : ∀ x ∈ e, okE W x) : okL W ret rt hs (initS e) := by
  cases e with
  | none => simp [initS, okL]
  | some e => simp only [initS, okL, ok, and_true]; exact h e rfl

/-- a block of several statements -/
theorem only_many {h : Option Nat} {a b : List S} (ha : a ≠ []) (hb : b ≠ []) : only (.block h (a ++ b)) = none := by
  cases a with
  | nil => exact absurd rfl ha
  | cons x a =>
      cases a with
      | nil => cases b with
          | nil => exact absurd rfl hb
          | cons y b => rfl
      | cons y a => rfl

/-- what a rewritten loop is -/
theorem only_enterS {h : Nat} {init cond : Option N} {hp : Option Nat} {pre : List S} {body : S} {post : List N} {pcond : Option N}
    (hpre : pre ≠ []) : only (enterS h init cond hp pre body post pcond) = none ∨
      ∃ c s, only (enterS h init cond hp pre body post pcond) = some (.and c s) := by
  cases cond with
  | none =>
      left
      unfold enterS
      simp only []
      rw [← List.append_assoc]
      exact only_many (by simp [hpre]) (by simp)
  | some c =>
      cases init with
      | none => exact Or.inr ⟨_, _, rfl⟩
      | some e => exact Or.inl rfl

theorem only_flat {s : S} : (∃ h i c hp pre b p q, s = .enter h i c hp pre b p q) ∨ (∃ h i c hp pre b p q hb, s = .block hb [.enter h i c hp pre b p q]) ∨
    only (flat s) = (only s).map flat := by
  cases s with
  | enter h i c hp pre b p q => exact Or.inl ⟨h, i, c, hp, pre, b, p, q, rfl⟩
  | block hb items =>
      cases items with
      | nil => exact Or.inr (Or.inr rfl)
      | cons x r =>
          cases r with
          | nil => exact Or.inr (Or.inr rfl)
          | cons y r => exact Or.inr (Or.inr rfl)
  | _ => exact Or.inr (Or.inr rfl)

theorem enterS_block (h : Nat) (init cond : Option N) (hp : Option Nat) (pre : List S) (body : S) (post : List N) (pcond : Option N) :
    ∃ items, enterS h init cond hp pre body post pcond = .block hp items := by
  cases cond <;> exact ⟨_, rfl⟩

theorem straight_enterS {h : Nat} {init cond : Option N} {hp : Option Nat} {pre : List S} {body : S} {post : List N} {pcond : Option N} :
    straight (enterS h init cond hp pre body post pcond) = false := by
  obtain ⟨it, e⟩ := enterS_block h init cond hp pre body post pcond
  rw [e]; rfl

/-- the body of a loop -/
theorem straight_body {h i c b p q} : straight (.loop h i c b p q) = match only b with
    | some x => straight x
    | none => false := by
  cases b with
  | block hb items =>
      cases items with
      | nil => rfl
      | cons x r => cases r <;> rfl
  | _ => rfl

theorem straight_flat {ret : Nat} : ∀ (N : Nat) (s : S), sizeOf s < N → ∀ hs, ok W ret rt hs s → straight (flat s) = true → straight s = true := by
  intro N
  induction N with
  | zero => intro s h; omega
  | succ N ih =>
      intro s hN hs hok hst
      cases s with
      | loop h i c b p q =>
          simp only [S.loop.sizeOf_spec] at hN
          rw [ok] at hok
          obtain ⟨_, _, _, _, _, _, hb, _⟩ := hok
          rw [flat, straight_body] at hst
          rw [straight_body]
          cases b with
          | enter h2 i2 c2 hp pre b2 p2 q2 =>
              rw [ok] at hb
              simp only [flat] at hst
              rcases only_enterS (h := h2) (init := i2) (cond := c2) (hp := hp) (body := flat b2) (post := p2) (pcond := q2) (flatL_ne hb.1) with e | ⟨_, _, e⟩ <;>
                · rw [e] at hst; simp [straight] at hst
          | block hb2 items =>
              rw [ok] at hb
              cases items with
              | nil => simp [flat, flatL, only] at hst
              | cons x r =>
                  cases r with
                  | cons y r => simp [flat, flatL, only] at hst
                  | nil =>
                      simp only [S.block.sizeOf_spec, List.cons.sizeOf_spec] at hN
                      simp only [flat, flatL, only] at hst
                      simp only [only]
                      rw [okL] at hb
                      exact ih x (by omega) _ hb.2.1 hst
          | loop h2 i2 c2 b2 p2 q2 => exact ih _ (by omega) _ hb hst
          | expr e => rfl
          | empty => rfl
          | jump h e => rfl
          | ite c a b => simp [flat, only, straight] at hst
          | and c a => simp [flat, only, straight] at hst
          | or c a => simp [flat, only, straight] at hst
      | enter h i c hp pre b p q => rw [flat, straight_enterS] at hst; cases hst
      | _ => first | rfl | (simp [flat, straight] at hst)

theorem okSub_flat {ret : Nat} {hs : List Nat} {s : S} (hok : ok W ret rt hs s) (h : okSub s) : okSub (flat s) := by
  intro hl i c b p q ho hst
  have hent : ∀ h i c hp pre b' p' q' hs', ok W ret rt hs' (.enter h i c hp pre b' p' q') → ∀ x, only (flat (.enter h i c hp pre b' p' q')) = some x →
      straight x = false := by
    intro h i c hp pre b' p' q' hs' hok' x hx
    rw [ok] at hok'
    rw [flat] at hx
    rcases only_enterS (h := h) (init := i) (cond := c) (hp := hp) (body := flat b') (post := p') (pcond := q') (flatL_ne hok'.1) with e | ⟨_, _, e⟩ <;>
      · rw [e] at hx; cases hx; try rfl
  rcases only_flat (s := s) with ⟨h2, i2, c2, hp, pre, b2, p2, q2, rfl⟩ | ⟨h2, i2, c2, hp, pre, b2, p2, q2, hb, rfl⟩ | e
  · rw [hent _ _ _ _ _ _ _ _ _ hok _ ho] at hst; cases hst
  · rw [flat, flatL, flatL] at ho
    simp only [only, Option.some.injEq] at ho
    rw [← ho, flat, straight_enterS] at hst; cases hst
  · rw [e] at ho
    cases hs' : only s with
    | none => rw [hs'] at ho; cases ho
    | some x =>
        rw [hs', Option.map_some, Option.some.injEq] at ho
        cases x with
        | loop h2 i2 c2 b2 p2 q2 =>
            rw [flat] at ho
            cases ho
            have hokx : ∃ hs', ok W ret rt hs' (.loop hl i c b2 p q) := by
              cases s with
              | block hb items =>
                  cases items with
                  | nil => cases hs'
                  | cons y r =>
                      cases r with
                      | cons z r => cases hs'
                      | nil => cases hs'; rw [ok, okL] at hok; exact ⟨_, hok.2.1⟩
              | loop h2 i2 c2 b3 p2 q2 => cases hs'; exact ⟨_, hok⟩
              | _ => cases hs'
            obtain ⟨hs2, hokx⟩ := hokx
            rw [far_flat]
            exact h _ _ _ _ _ _ hs' (straight_flat _ _ (Nat.lt_succ_self _) _ hokx (by rw [flat]; exact hst))
        | enter h2 i2 c2 hp pre b2 p2 q2 =>
            rw [flat] at ho
            obtain ⟨it, e2⟩ := enterS_block h2 i2 c2 hp (flatL pre) (flat b2) p2 q2
            rw [e2] at ho; cases ho
        | _ => rw [flat] at ho; cases ho

theorem silent_flat {ret : Nat} {hs : List Nat} {s : S} (hok : ok W ret rt hs s) : silent (flat s) = silent s := by
  unfold silent
  rcases only_flat (s := s) with ⟨h2, i2, c2, hp, pre, b2, p2, q2, rfl⟩ | ⟨h2, i2, c2, hp, pre, b2, p2, q2, hb, rfl⟩ | e
  · rw [ok] at hok
    rw [flat]
    rcases only_enterS (h := h2) (init := i2) (cond := c2) (hp := hp) (body := flat b2) (post := p2) (pcond := q2) (flatL_ne hok.1) with e | ⟨_, _, e⟩ <;>
      · rw [e]; rfl
  · rw [flat, flatL, flatL]
    simp only [only]
    obtain ⟨it, e2⟩ := enterS_block h2 i2 c2 hp (flatL pre) (flat b2) p2 q2
    rw [flat, e2]
  · rw [e]
    cases only s with
    | none => rfl
    | some x =>
        rw [Option.map_some]
        cases x with
        | enter h2 i2 c2 hp pre b2 p2 q2 =>
            obtain ⟨it, e2⟩ := enterS_block h2 i2 c2 hp (flatL pre) (flat b2) p2 q2
            rw [flat, e2]
        | _ => rfl

/-- **The rewritten statement is one the emitter gets right, and does the same.** -/
theorem flat_aux {ret : Nat} : ∀ (N : Nat) (s : S), sizeOf s < N → ∀ hs, ok W ret rt hs s →
    ok W ret rt hs (flat s) ∧ ∀ n st, exec W n (flat s) st = exec W n s st := by
  intro N
  induction N with
  | zero => intro s h; omega
  | succ N ih =>
      have hL : ∀ (l : List S), sizeOf l < N → ∀ hs, okL W ret rt hs l →
          okL W ret rt hs (flatL l) ∧ ∀ n st, execL W n (flatL l) st = execL W n l st := by
        intro l
        induction l with
        | nil => intro _ _ _; rw [flatL]; exact ⟨by rw [okL]; trivial, fun _ _ => rfl⟩
        | cons s r ihl =>
            intro hz hs h
            simp only [List.cons.sizeOf_spec] at hz
            rw [okL] at h
            obtain ⟨h1, h2⟩ := ih s (by omega) _ h.1
            obtain ⟨h3, h4⟩ := ihl (by omega) _ h.2
            rw [flatL]
            refine ⟨by rw [okL]; exact ⟨h1, h3⟩, fun n st => ?_⟩
            rw [execL, execL, h2, show execL W n (flatL r) = execL W n r from funext (h4 n)]
      intro s hN hs hok
      cases s with
      | expr e => exact ⟨hok, fun _ _ => rfl⟩
      | empty => exact ⟨hok, fun _ _ => rfl⟩
      | jump h e => exact ⟨hok, fun _ _ => rfl⟩
      | ite c a b =>
          simp only [S.ite.sizeOf_spec] at hN
          rw [ok] at hok
          obtain ⟨h1, h2, h3, h4, h5, h6⟩ := hok
          obtain ⟨ha1, ha2⟩ := ih a (by omega) _ h4
          obtain ⟨hb1, hb2⟩ := ih b (by omega) _ h5
          rw [flat]
          refine ⟨?_, fun n st => ?_⟩
          · rw [ok]
            refine ⟨h1, okSub_flat h4 h2, okSub_flat h5 h3, ha1, hb1, ?_⟩
            rw [silent_flat h4, silent_flat h5]; exact h6
          · rw [exec, exec, show exec W n (flat a) = exec W n a from funext (ha2 n), show exec W n (flat b) = exec W n b from funext (hb2 n)]
      | and cs b =>
          simp only [S.and.sizeOf_spec] at hN
          rw [ok] at hok
          obtain ⟨h1, h2, h3, h4⟩ := hok
          obtain ⟨hb1, hb2⟩ := ih b (by omega) _ h4
          rw [flat]
          refine ⟨by rw [ok]; exact ⟨h1, h2, okSub_flat h4 h3, hb1⟩, fun n st => ?_⟩
          rw [exec, exec, show exec W n (flat b) = exec W n b from funext (hb2 n)]
      | or cs b =>
          simp only [S.or.sizeOf_spec] at hN
          rw [ok] at hok
          obtain ⟨h1, h2, h3, h4⟩ := hok
          obtain ⟨hb1, hb2⟩ := ih b (by omega) _ h4
          rw [flat]
          refine ⟨by rw [ok]; exact ⟨h1, h2, okSub_flat h4 h3, hb1⟩, fun n st => ?_⟩
          rw [exec, exec, show exec W n (flat b) = exec W n b from funext (hb2 n)]
      | block h items =>
          simp only [S.block.sizeOf_spec] at hN
          rw [ok] at hok
          obtain ⟨h1, h2⟩ := hok
          obtain ⟨hb1, hb2⟩ := hL items (by omega) _ h2
          rw [flat]
          refine ⟨?_, fun n st => by rw [exec, exec, hb2]⟩
          rw [ok]
          refine ⟨fun x hx => ?_, hb1⟩
          dsimp only; rw [jumpsL_flat]; exact h1 x hx
      | loop h init cond body post pcond =>
          simp only [S.loop.sizeOf_spec] at hN
          rw [ok] at hok
          obtain ⟨h1, h2, h3, h4, h5, h6, h7, h8⟩ := hok
          obtain ⟨hb1, hb2⟩ := ih body (by omega) _ h7
          rw [flat]
          refine ⟨?_, fun n st => by rw [exec, exec, show exec W n (flat body) = exec W n body from funext (hb2 n)]⟩
          rw [ok, far_flat, silent_flat h7]
          exact ⟨h1, h2, h3, h4, h5, okSub_flat h7 h6, hb1, h8⟩
      | enter h init cond hp pre body post pcond =>
          simp only [S.enter.sizeOf_spec] at hN
          rw [ok] at hok
          obtain ⟨h0, h1, h2, h3, h4, h5, h6, h7, h8, h9, h10, h11, h12⟩ := hok
          obtain ⟨hp1, hp2⟩ := hL pre (by omega) _ h8
          obtain ⟨hb1, hb2⟩ := ih body (by omega) _ h10
          rw [flat]
          have hnot : h ∉ hp.toList ++ hs := by
            simp only [List.mem_append, not_or]
            refine ⟨fun hx => ?_, h1⟩
            cases hp with
            | none => cases hx
            | some x => simp at hx; exact (h2 x rfl).1 hx.symm
          refine ⟨?_, fun n st => ?_⟩
          · cases cond with
            | none =>
                simp only [enterS]
                rw [ok]
                refine ⟨fun x hx => Or.inl (h2 x hx).2.1, ?_⟩
                rw [okL_append, okL_append]
                refine ⟨okL_init h3, hp1, ?_⟩
                rw [okL, okL]
                refine ⟨?_, trivial⟩
                rw [ok, far_flat, silent_flat h10]
                exact ⟨hnot, by simp, by simp, h5, h6, okSub_flat h10 h7, hb1, fun hq => ⟨rfl, rfl, h12 (Or.inr hq)⟩⟩
            | some c =>
                have hm : ∀ x, x ∈ hp.toList ++ hs ↔ x ∈ hp.toList ++ (hp.toList ++ hs) := fun x => by
                  simp only [List.mem_append]
                  exact ⟨fun h => Or.inr h, fun h => h.elim Or.inl id⟩
                simp only [enterS]
                rw [ok]
                refine ⟨fun x hx => Or.inl (h2 x hx).2.1, ?_⟩
                rw [okL_append]
                refine ⟨okL_init h3, ?_⟩
                rw [okL, okL]
                refine ⟨?_, trivial⟩
                rw [ok]
                refine ⟨by simp, fun x hx => ?_, fun hl i c' b p q ho => ?_, ?_⟩
                · rw [List.mem_singleton] at hx; subst hx; exact h4 x rfl
                · rw [only_many (flatL_ne h0) (by simp)] at ho; cases ho
                · rw [ok]
                  refine ⟨fun x hx => Or.inr ?_, ?_⟩
                  · simp only [jumpsL_append, jumpsL, jumps, jumpsL_flat, jumps_flat, (h2 x hx).2.2.1, (h2 x hx).2.2.2, Bool.or_self]
                  · rw [okL_append]
                    refine ⟨okL_set hm hp1, ?_⟩
                    rw [okL, okL]
                    refine ⟨?_, trivial⟩
                    rw [ok, far_flat, silent_flat h10]
                    refine ⟨fun hx => hnot ((hm h).2 hx), by simp, by simp, h5, ?_, okSub_flat h10 h7,
                      ok_set (fun x => by simp only [List.mem_cons, hm]) hb1, fun _ => ⟨rfl, rfl, h12 (Or.inl rfl)⟩⟩
                    intro e he; cases he; exact h4 c rfl
          · rw [exec_enterS n (by rw [jumpsL_flat]; exact h9) (fun x hx => by rw [jumpsL_flat, jumps_flat]; exact (h2 x hx).2.2) h11]
            rw [exec, exec, show exec W n (flat body) = exec W n body from funext (hb2 n),
              show execL W n (flatL pre) = execL W n pre from funext (hp2 n)]

theorem ok_flat {ret : Nat} {hs : List Nat} {l : List S} (h : okL W ret rt hs l) : okL W ret rt hs (flatL l) := by
  induction l with
  | nil => exact h
  | cons s r ih => rw [okL] at h; rw [flatL, okL]; exact ⟨(flat_aux _ s (Nat.lt_succ_self _) _ h.1).1, ih h.2⟩

theorem exec_flat {ret : Nat} {hs : List Nat} {l : List S} (h : okL W ret rt hs l) (n : Nat) (st : W.σ) :
    execL W n (flatL l) st = execL W n l st := by
  induction l generalizing st with
  | nil => rfl
  | cons s r ih =>
      rw [okL] at h
      rw [flatL, execL, execL, (flat_aux _ s (Nat.lt_succ_self _) _ h.1).2 n st,
        show execL W n (flatL r) = execL W n r from funext fun st => ih h.2 st]

end Verif.StmtSim
