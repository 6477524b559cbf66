import Verif.StmtSim

/-!
# C93: branches, conditionals, jumps
-/

namespace Verif.StmtSim

open Verif.CgText Verif.CgExpr Verif.CgStmt Verif.CppGram Verif.CgMean Verif.CppStmt Verif.StmtRun Verif.StmtEval
  Verif.StmtRel Verif.StmtText

variable {W : World} (odd : List Sym → Bool) {rt : Ty}

theorem term_semi {t : List Tk} (h : t.getLast? = some .semi) : term t = t := by
  unfold term
  by_cases h1 : t.isEmpty = true
  · rw [if_pos h1]; rw [List.isEmpty_iff] at h1; rw [h1]
  · rw [if_neg h1, if_pos h]

theorem term_not {t : List Tk} (hne : t ≠ []) (h : t.getLast? ≠ some .semi) : term t = t ++ [.semi] := by
  unfold term
  rw [if_neg (by rw [List.isEmpty_iff]; exact hne), if_neg h]

theorem term_last {t : List Tk} (hne : t ≠ []) : (term t).getLast? = some .semi := by
  by_cases h : t.getLast? = some .semi
  · rw [term_semi h]; exact h
  · rw [term_not hne h]; exact last_snoc rfl

theorem term_nil {t : List Tk} (h : term t = []) : t = [] := by
  by_cases hne : t = []
  · exact hne
  · have := term_last hne
    rw [h] at this; cases this

theorem term_append {a t : List Tk} (hne : t ≠ []) : term (a ++ t) = a ++ term t := by
  by_cases h : t.getLast? = some .semi
  · rw [term_semi h, term_semi (last_snoc h)]
  · rw [term_not hne h, term_not (by simp [hne])]
    · simp
    · intro h'
      apply h
      rw [List.getLast?_append] at h'
      cases ht : t.getLast? with
      | none => rw [List.getLast?_eq_none_iff] at ht; exact absurd ht hne
      | some x => rw [ht] at h'; simpa using h'

theorem exec_silent {s : S} (h : silent s = true) (n : Nat) (s0 : W.σ) : exec W n s s0 = .norm s0 := by
  unfold silent at h
  cases s with
  | block o items =>
      match items with
      | [] => simp [only] at h
      | [x] =>
          cases x <;> simp [only] at h
          simp only [exec, execL, Out.after, caught]
      | x :: y :: r => simp [only] at h
  | empty => rw [exec]
  | _ => simp [only] at h

variable (W) (rt) in
/-- The text of the statement does what the statement does, wherever it stands. -/
def Claim (x : S) : Prop := ∀ env hs l k, EnvOK env hs l → ok W env.ret rt hs x → noEnter x = true →
  LineOK W rt env x l (line odd env x l k).t

theorem okL_mem {ret : Nat} {hs : List Nat} : ∀ {l : List S}, okL W ret rt hs l → ∀ s ∈ l, ok W ret rt hs s
  | [], _, s, hs => by cases hs
  | a :: l, h, s, hs => by
      rw [okL] at h
      rcases List.mem_cons.1 hs with rfl | hs
      · exact h.1
      · exact okL_mem h.2 s hs

theorem ok_items {ret : Nat} {hs : List Nat} {s : S} (h : ok W ret rt hs s) :
    fresh (helper s) hs (fun x => jumpsL x (itemsOf s)) ∧ okL W ret rt ((helper s).toList ++ hs) (itemsOf s) := by
  cases s with
  | block o items => rw [ok] at h; exact h
  | _ =>
      refine ⟨(by intro x hx; cases hx), ?_⟩
      simp only [itemsOf, helper, okL, Option.toList_none, List.nil_append]
      exact ⟨h, trivial⟩

theorem envOf_ret {env : Env} {lb : Bool} {s : S} {l : Nat} : (envOf env lb s l).ret = env.ret := by cases lb <;> rfl

theorem items_ok {env : Env} {hs : List Nat} {l k : Nat} (he : EnvOK env hs l) (lb : Bool) {s : S} (hok : ok W env.ret rt hs s)
    (hn : noEnter s = true) (H : ∀ x ∈ itemsOf s, Claim W odd rt x) :
    LinesOK W rt (envOf env lb s l) (itemsOf s) (l + 1) (lines odd (envOf env lb s l) (itemsOf s) (l + 1) k).t := by
  have he' := envOf_ok he lb s
  refine lines_ok odd (hs := (helper s).toList ++ hs) (fun x hx l' k' hl' => ?_) (l + 1) k he'
  exact H x hx _ _ l' k' hl' (by rw [envOf_ret]; exact okL_mem (ok_items hok).2 x hx) (noEnterL_mem (noEnter_items hn) x hx)

/-- **A branch or a body.** -/
theorem sub_ok {env : Env} {hs : List Nat} {l k : Nat} (he : EnvOK env hs l) (lb : Bool) {s : S} (hok : ok W env.ret rt hs s)
    (hn : noEnter s = true) (hsub : okSub s) (H : ∀ x ∈ itemsOf s, Claim W odd rt x) :
    SubOK W rt env lb s (sub odd env lb s l k).t := by
  have hl := items_ok odd (k := k) he lb hok hn H
  have hf := (ok_items hok).1
  by_cases hb : Tk.lbr ∈ (sub odd env lb s l k).t
  · right
    rw [sub_eq] at hb ⊢
    dsimp only at hb ⊢
    obtain ⟨c, _, h1, h2, h3⟩ := braces_ok odd he hl hf hb
    exact ⟨c, h1, h2, Or.inr ⟨h3, hb⟩⟩
  · obtain ⟨x, hi, hd, ht, hc, hg⟩ := sub_lbr odd hb
    have hx : x ∈ itemsOf s := by rw [hi]; exact List.mem_singleton.2 rfl
    have hnx := noEnterL_mem (noEnter_items hn) x hx
    have hcl := H x hx _ _ (l + 1) k (envOf_ok he lb s) (by rw [envOf_ret]; exact okL_mem (ok_items hok).2 x hx) hnx
    have hon := only_items hi
    rw [ht] at hc hb hg ⊢
    generalize hlt : (line odd (envOf env lb s l) x (l + 1) k).t = t at *
    rcases hcl with ⟨rfl, rfl⟩ | ⟨c, tl, hgd⟩
    · left
      exact ⟨rfl, by rw [silent, hon]⟩
    · right
      have hkif : Tk.kif ∉ t := fun h => (curly_lbr odd (curly_term odd hc)).2 h
      have htl : tl = .no := by
        cases tl with
        | no => rfl
        | semi => exact absurd (hgd.semi rfl) (curly_lbr odd (curly_term odd hc)).1
        | lab g =>
            obtain ⟨_, h, i, cn, b, p, q, hs', hfar⟩ := hgd.lab g rfl
            subst hs'
            have hst := curly_straight odd _ _ (Nat.lt_succ_self _) hnx (envOf env lb s l) (l + 1) k
              (by rw [hlt]; exact curly_term odd hc)
            rw [hsub h i cn b p q hon hst] at hfar
            cases hfar
      subst htl
      refine ⟨c, fun rest => hgd.reads rest (fun hk => absurd hk hkif), fun n s0 τ => ?_, Or.inl (term_last hgd.ne)⟩
      refine (runs_one.1 (hgd.sem n s0 τ)).mono fun o ho hr => ?_
      have hex : execL W n (itemsOf s) s0 = exec W n x s0 := by
        rw [hi]
        simp only [execL]
        cases exec W n x s0 <;> rfl
      rw [exec_items, hex]
      have hfr : ∀ h v s', exec W n x s0 = .leave h v s' → helper s = some h → h ∉ hs := by
        intro h v s' ho' hh hm
        rcases hf h hh with h4 | h4
        · exact h4 hm
        · have := leave_jumps W n _ _ _ _ _ ho'
          simp only [hi, jumpsL, Bool.or_false] at h4
          rw [h4] at this; cases this
      rcases catch_rel he hfr hr with ⟨s', τ', e1, rfl⟩ | ⟨_, hbr⟩
      · exfalso
        obtain ⟨p, hp1, hp2⟩ := (hgd.reads [] (by simp)).text
        simp only [Tail.toks, List.append_nil] at hp1
        rw [← hp1] at hp2
        exact hg ((hp2 _).2 (does_goto rt n c _ _ _ ho))
      · exact hbr

/-! ## Blocks, expressions, jumps -/

theorem brel_false {env : Env} {out : Out W.σ} {o : CO W} (h : BRel false env out o) : Rel env out o := by
  rcases h with h | ⟨h, _⟩
  · exact h
  · cases h

theorem block_ok {h : Option Nat} {items : List S} (H : ∀ x ∈ items, Claim W odd rt x) : Claim W odd rt (.block h items) := by
  intro env hs l k he hok hn
  have hl := items_ok odd (k := k) he false hok hn H
  rw [line]
  have hw : Tk.lbr ∈ wrap odd false items.length l (lines odd (env.push (.bl l) h) items (l + 1) k) := by
    by_cases hb : Tk.lbr ∈ wrap odd false items.length l (lines odd (env.push (.bl l) h) items (l + 1) k)
    · exact hb
    · have := (wrap_lbr odd hb).2.2.1; cases this
  obtain ⟨c, h0, h1, h2, h3⟩ := braces_ok odd (k := k) he hl (ok_items hok).1 hw
  refine Or.inr ⟨c, .semi, ?_⟩
  have hne : wrap odd false items.length l (lines odd (env.push (.bl l) h) items (l + 1) k) ≠ [] := by
    intro h'; rw [h'] at hw; cases hw
  refine ⟨hne, fun rest _ => ?_, fun n s0 τ => ?_, h0, by simp, fun _ => hw⟩
  · rw [term_not hne (by rw [show (wrap odd false items.length l (lines odd (env.push (.bl l) h) items (l + 1) k)).getLast? = _ from h3]; simp)]
    rw [List.append_assoc]
    exact h1 ([.semi] ++ rest)
  · exact runs_semi.2 ((h2 n s0 τ).mono fun o _ hr => brel_false hr)

theorem expr_ok {e : N} : Claim W odd rt (.expr e) := by
  intro env hs l k he hok hn
  rw [ok] at hok
  rw [line]
  refine Or.inr ⟨.ex (text (cg { stmt := true } e k).1), .no, by simp, fun rest _ => .ex, fun n s0 τ => runs_one.2 ?_, rfl, by simp, by simp⟩
  rw [does, exec]
  have hv := runs_val (ev_stmt hok.1 { stmt := true } k) (k := fun _ st o => o = .norm st) (K := fun _ s' => Out.norm s')
    (R := Rel env) .hang s0 τ (fun x s' _ c τ' _ => ⟨⟨_, rfl⟩, fun o ho => by cases ho; exact .norm⟩)
  rw [andThen_map _ (fun _ => ())] at hv
  exact hv

theorem empty_ok : Claim W odd rt .empty := by
  intro env hs l k he hok hn
  rw [line]
  exact Or.inl ⟨rfl, rfl⟩

theorem name_of {env : Env} {h : Nat} {g : Lab} (hf : find env.blocks h = some g) : env.name h = g := by
  unfold Env.name; rw [hf]; rfl

theorem jump_ok {h : Nat} {e : Option N} : Claim W odd rt (.jump h e) := by
  intro env hs l k he hok hn
  rw [ok] at hok
  obtain ⟨hm, hoke⟩ := hok
  cases e with
  | none =>
      rw [line]
      dsimp only
      by_cases h1 : h = env.ret
      · rw [if_pos h1]
        refine Or.inr ⟨.ret none, .no, by simp, fun rest _ => .ret, fun n s0 τ => runs_one.2 ?_, rfl, by simp, by simp⟩
        rw [does, exec]
        exact ⟨⟨_, rfl⟩, fun o ho => by cases ho; rw [h1]; exact .ret⟩
      · rw [if_neg h1]
        by_cases h2 : env.brk = some h
        · rw [if_pos h2]
          refine Or.inr ⟨.brk, .no, by simp, fun rest _ => .brk, fun n s0 τ => runs_one.2 ?_, rfl, by simp, by simp⟩
          rw [does, exec]
          exact ⟨⟨_, rfl⟩, fun o ho => by cases ho; exact .brk h1 h2⟩
        · rw [if_neg h2]
          by_cases h3 : env.cont = some h
          · rw [if_pos h3]
            refine Or.inr ⟨.cont, .no, by simp, fun rest _ => .cont, fun n s0 τ => runs_one.2 ?_, rfl, by simp, by simp⟩
            rw [does, exec]
            exact ⟨⟨_, rfl⟩, fun o ho => by cases ho; exact .cont h1 h3⟩
          · rw [if_neg h3]
            obtain ⟨g, hg⟩ := he.has h hm h1
            refine Or.inr ⟨.goto (env.name h), .no, by simp, fun rest _ => .goto, fun n s0 τ => runs_one.2 ?_, rfl, by simp, by simp⟩
            rw [does, exec]
            exact ⟨⟨_, rfl⟩, fun o ho => by cases ho; exact .goto h1 (by rw [name_of hg]; exact hg)⟩
  | some e =>
      have hoke := hoke e rfl
      rw [line]
      by_cases h1 : h = env.ret
      · rw [if_pos h1] at hoke ⊢
        refine Or.inr ⟨.ret (some (text (cg { parens := true, ret := true, abByval := true } e k).1)), .no, by simp,
          fun rest _ => .retv, fun n s0 τ => runs_one.2 ?_, rfl, by simp, by simp⟩
        rw [does, exec]
        have hv := runs_val (ev_ret hoke.1 { parens := true, ret := true, abByval := true } k)
          (k := fun c st o => match conv W rt c with | some v => o = .ret (some v) st | none => ∃ v st', o = .ret v st')
          (K := fun v s' => Out.leave h v s') (R := Rel env) .hang s0 τ (fun x s' hx c τ' hc => by
            rw [hoke.2] at hc
            obtain ⟨v, rfl⟩ : ∃ v, x = some v := by
              cases hr : CgMean.run W e s0 with
              | none => rw [hr] at hx; cases hx
              | some y => rw [hr] at hx; cases hx; exact ⟨_, rfl⟩
            refine ⟨⟨.ret (some v) (s', τ'), ?_⟩, fun o ho => ?_⟩
            · simp only [hc]
            · simp only [hc] at ho
              subst ho; rw [h1]; exact .ret)
        rw [andThen_map] at hv
        exact hv
      · rw [if_neg h1] at hoke ⊢
        obtain ⟨g, hg⟩ := he.has h hm h1
        refine Or.inr ⟨.seq [.ex (text (cg { stmt := true } e k).1), .goto (env.name h)], .semi, by simp, fun rest _ => ?_,
          fun n s0 τ => runs_semi.2 ?_, rfl, by simp, by simp⟩
        · rw [term_not (by simp) (by simp)]
          simp only [ex, Tail.toks, List.cons_append, List.nil_append]
          exact .block (.cons .ex (.cons .goto .nil))
        · rw [does, exec]
          have hv := runs_val (ev_stmt hoke.1 { stmt := true } k) (k := fun _ st o => o = .norm st) (K := fun _ s' => Out.norm s')
            (R := fun out o => Rel env out o ∧ ∀ g st, o ≠ .goto g st) ⟨.hang, by simp⟩ s0 τ
            (fun x s' _ c τ' _ => ⟨⟨_, rfl⟩, fun o ho => by cases ho; exact ⟨.norm, by simp⟩⟩)
          rw [andThen_map _ (fun _ => ())] at hv
          refine runs_cons (by rw [does]; exact hv) ?_
          rintro o1 _ ⟨hr1, hng⟩
          cases hr : CgMean.run W e s0 with
          | none => rw [hr] at hr1; cases hr1; exact runs_is .hang
          | some y =>
              rw [hr] at hr1
              simp only [andThen] at hr1 ⊢
              cases hr1 with
              | @norm _ τ1 =>
                  have : ∀ o : CO W, thenL rt n [.goto (env.name h)] (.norm (y.2, τ1)) o ↔ o = .goto (env.name h) (y.2, τ1) := by
                    intro o
                    show doesL W rt n _ none _ _ ↔ _
                    rw [doesL_one, does]
                  exact ⟨⟨_, (this _).2 rfl⟩, fun o ho => by rw [(this o).1 ho]; exact .goto h1 (by rw [name_of hg]; exact hg)⟩

/-! ## Conditionals -/

variable (W) (rt) in
/-- What follows `else`. -/
def Branch (env : Env) (s : S) (t : List Tk) : Prop :=
  (t = [] ∧ silent s = true) ∨ ∃ c b, t ≠ [] ∧ (∀ rest, rest.head? ≠ some Tk.kelse → One (term t ++ rest) c ((tailOf b).toks ++ rest)) ∧
    (b = true → Tk.lbr ∈ t) ∧ ∀ n s0 τ, Runs (does W rt n c) (s0, τ) (Rel env (exec W n s s0))

theorem sub_branch {env : Env} {s : S} {t : List Tk} (h : SubOK W rt env false s t) : Branch W rt env s t := by
  rcases h with h | ⟨c, h1, h2, h3⟩
  · exact Or.inl h
  · right
    rcases h3 with h3 | ⟨h3, h4⟩
    · refine ⟨c, false, (by rintro rfl; cases h3), fun rest _ => ?_, by simp, fun n s0 τ => (h2 n s0 τ).mono fun o _ => brel_false⟩
      rw [term_semi h3]; exact h1 rest
    · have hne : t ≠ [] := by rintro rfl; cases h3
      refine ⟨c, true, hne, fun rest _ => ?_, fun _ => h4, fun n s0 τ => (h2 n s0 τ).mono fun o _ => brel_false⟩
      rw [term_not hne (by rw [h3]; simp), List.append_assoc]; exact h1 _

theorem line_branch {env : Env} {s : S} {l : Nat} {t : List Tk} (hi : isIf s = true) (h : LineOK W rt env s l t) :
    Branch W rt env s t := by
  rcases h with ⟨_, rfl⟩ | ⟨c, tl, hg⟩
  · cases hi
  · right
    cases tl with
    | no => exact ⟨c, false, hg.ne, fun rest hr => hg.reads rest (fun _ => hr), by simp, fun n s0 τ => runs_one.1 (hg.sem n s0 τ)⟩
    | semi => exact ⟨c, true, hg.ne, fun rest hr => hg.reads rest (fun _ => hr), fun _ => hg.semi rfl, fun n s0 τ => runs_semi.1 (hg.sem n s0 τ)⟩
    | lab g =>
        obtain ⟨_, h, i, cn, b, p, q, rfl, _⟩ := hg.lab g rfl
        cases hi

/-- `if (c) s` -/
theorem if_ok {env : Env} {s a : S} {l : Nat} {t : List Tk} {tc : List Sym} {f : M W Bool}
    (hev : Ev tc (ctruth W) f) (ha : SubOK W rt env false a t)
    (hex : ∀ n s0, exec W n s s0 = andThen (f s0) fun v s' => if v then exec W n a s' else .norm s') :
    ∃ c tl, Good W rt env s l ([.kif, .lp, .x tc, .rp] ++ t) c tl := by
  have sem : ∀ c, (∀ n s0 τ, Runs (does W rt n c) (s0, τ) (Rel env (exec W n a s0))) →
      ∀ n s0 τ, Runs (does W rt n (.ite tc c)) (s0, τ) (Rel env (exec W n s s0)) := by
    intro c hc n s0 τ
    rw [does, hex]
    refine runs_val hev .hang s0 τ (fun x s' _ v τ' hv => ?_)
    cases x with
    | true => simp only [hv, if_true]; exact hc n s' τ'
    | false => simp only [hv, Bool.false_eq_true, if_false]; exact ⟨⟨_, rfl⟩, fun o ho => by cases ho; exact .norm⟩
  rcases sub_branch ha with ⟨rfl, hsil⟩ | ⟨c, b, hne, h1, h2, h3⟩
  · refine ⟨.ite tc .skip, .no, by simp, fun rest hr => ?_, fun n s0 τ => runs_one.2 (sem .skip (fun n s0 τ => ?_) n s0 τ), rfl,
      (fun g hg => by cases hg), by simp⟩
    · exact .ite .skip (hr (by simp))
    · rw [does, exec_silent hsil]
      exact ⟨⟨_, rfl⟩, fun o ho => by cases ho; exact .norm⟩
  · refine ⟨.ite tc c, tailOf b, by simp, fun rest hr => ?_, fun n s0 τ => (runs_tail b).2 (sem c h3 n s0 τ), rfl,
      (fun g hg => by cases b <;> cases hg), fun hb => ?_⟩
    · have hr := hr (by simp)
      rw [term_append hne, List.append_assoc]
      refine .ite (h1 rest hr) ?_
      cases b
      · exact hr
      · simp [tailOf, Tail.toks]
    · cases b
      · cases hb
      · exact List.mem_append.2 (Or.inr (h2 rfl))

theorem ite_ok {c : N} {a b : S} (Ha : ∀ x ∈ itemsOf a, Claim W odd rt x) (Hb : ∀ x ∈ itemsOf b, Claim W odd rt x)
    (Hb' : Claim W odd rt b) : Claim W odd rt (.ite c a b) := by
  intro env hs l k he hok hn
  rw [ok] at hok
  obtain ⟨hc, hsa, hsb, ha, hb, hsil⟩ := hok
  rw [noEnter, Bool.and_eq_true] at hn
  rw [line]
  dsimp only
  have h1 : SubOK W rt env false a (sub odd env false a l (cg { parens := true } c k).2).t := sub_ok odd he false ha hn.1 hsa Ha
  have hmono := sub_mono odd (s := a) (fun y _ => line_mono odd _ y (Nat.lt_succ_self _)) env false l (cg { parens := true } c k).2
  generalize sub odd env false a l (cg { parens := true } c k).2 = ra at h1 hmono ⊢
  have he2 := he.mono hmono
  have h2 : Branch W rt env b (if isIf b = true then line odd env b ra.l ra.k else sub odd env false b ra.l ra.k).t := by
    by_cases hi : isIf b = true
    · rw [if_pos hi]; exact line_branch hi (Hb' env hs _ _ he2 hb hn.2)
    · rw [if_neg hi]; exact sub_branch (sub_ok odd he2 false hb hn.2 hsb Hb)
  have h3 : silent b = true → (if isIf b = true then line odd env b ra.l ra.k else sub odd env false b ra.l ra.k).t = [] := by
    intro hsb
    have hi : isIf b = false := by cases b <;> first | rfl | (simp [silent, only] at hsb)
    simp only [hi, Bool.false_eq_true, if_false]
    exact sub_silent odd hsb
  generalize (if isIf b = true then line odd env b ra.l ra.k else sub odd env false b ra.l ra.k) = rb at h2 h3 ⊢
  right
  by_cases hbe : rb.t.isEmpty = true
  · rw [if_pos hbe, List.append_nil]
    have hbs : silent b = true := by
      rcases h2 with h | ⟨_, _, hne, _⟩
      · exact h.2
      · rw [List.isEmpty_iff] at hbe; exact absurd hbe hne
    refine if_ok (ev_cond hc { parens := true } k) h1 (fun n s0 => ?_)
    rw [exec, andThen_map]
    simp only [exec_silent hbs]
  · rw [if_neg hbe]
    have hbne : rb.t ≠ [] := by rw [List.isEmpty_iff] at hbe; exact hbe
    rcases h2 with ⟨h, _⟩ | ⟨cb, bb, _, hb1, hb2, hb3⟩
    · exact absurd h hbne
    rcases h1 with ⟨_, hsa'⟩ | ⟨ca, ha1, ha2, _⟩
    · exact absurd (h3 (hsil hsa')) hbne
    refine ⟨.itel (text (cg { parens := true } c k).1) ca cb, tailOf bb, by simp, fun rest hr => ?_,
      fun n s0 τ => (runs_tail bb).2 ?_, rfl, (fun g hg => by cases bb <;> cases hg), fun hbb => ?_⟩
    · have e : [Tk.kif, .lp, ex { parens := true } c k, .rp] ++ ra.t ++ .kelse :: rb.t =
          ([Tk.kif, .lp, ex { parens := true } c k, .rp] ++ ra.t ++ [.kelse]) ++ rb.t := by simp
      rw [e, term_append hbne]
      simp only [List.append_assoc, List.cons_append, List.nil_append]
      exact .itel (ha1 _) (hb1 rest (hr (by simp)))
    · rw [does, exec]
      have hv := runs_val (ev_cond hc { parens := true } k)
        (k := fun v st o => if ctruth W v then does W rt n ca st o else does W rt n cb st o)
        (K := fun v s' => if v then exec W n a s' else exec W n b s') (R := Rel env) .hang s0 τ (fun x s' _ v τ' hv => by
          cases x with
          | true => simp only [hv, if_true]; exact (ha2 n s' τ').mono fun o _ => brel_false
          | false => simp only [hv, Bool.false_eq_true, if_false]; exact hb3 n s' τ')
      rw [andThen_map] at hv
      exact hv
    · cases bb
      · cases hbb
      · simp [hb2 rfl]

theorem and_ok {cs : List N} {b : S} (H : ∀ x ∈ itemsOf b, Claim W odd rt x) : Claim W odd rt (.and cs b) := by
  intro env hs l k he hok hn
  rw [ok] at hok
  obtain ⟨hne, hc, hsub, hb⟩ := hok
  rw [noEnter] at hn
  rw [line]
  right
  refine if_ok (ev_and hne hc k) (sub_ok odd he false hb hn hsub H) (fun n s0 => ?_)
  rw [exec]

theorem or_ok {cs : List N} {b : S} (H : ∀ x ∈ itemsOf b, Claim W odd rt x) : Claim W odd rt (.or cs b) := by
  intro env hs l k he hok hn
  rw [ok] at hok
  obtain ⟨hne, hc, hsub, hb⟩ := hok
  rw [noEnter] at hn
  rw [line]
  right
  refine if_ok (ev_or hne hc k) (sub_ok odd he false hb hn hsub H) (fun n s0 => ?_)
  rw [exec, andThen_map]
  congr 1
  funext v s'
  cases v <;> simp

end Verif.StmtSim
