import Verif.StmtSim2

/-!
# C93: loops
-/

namespace Verif.StmtSim

open Verif.CgText Verif.CgExpr Verif.CgStmt Verif.CppGram Verif.CgMean Verif.CppStmt Verif.StmtRun Verif.StmtEval
  Verif.StmtRel Verif.StmtText

variable {W : World} (odd : List Sym → Bool) {rt : Ty}

/-- What is around the body of a loop. -/
def loopEnv (env : Env) (h l : Nat) : Env := { env.push (.ll l) (some h) with brk := some h, cont := none }

theorem loopEnv_ok {env : Env} {hs : List Nat} {l h : Nat} (he : EnvOK env hs l) : EnvOK (loopEnv env h l) (h :: hs) (l + 1) := by
  have hp := he.push (.ll l) rfl (some h)
  refine ⟨hp.lt, hp.has, hp.ret, fun x hx => ?_, fun x hx => ?_⟩
  · cases hx; exact List.mem_cons_self ..
  · cases hx

/-- After the turns of a loop, before its label. -/
def XRel (env : Env) (h l : Nat) (out : Out W.σ) (o : CO W) : Prop :=
  (∃ v s τ, out = .leave h v s ∧ (o = .norm (s, τ) ∨ o = .goto (.ll l) (s, τ))) ∨
    ((∀ v s, out ≠ .leave h v s) ∧ Rel env out o)

theorem after_body {env : Env} {hs : List Nat} {l h : Nat} (he : EnvOK env hs l) (hh : h ∉ hs) {out : Out W.σ} {o1 : CO W}
    {next : Act W} {K : W.σ → Out W.σ} (hb : BRel true (loopEnv env h l) out o1)
    (hn : ∀ s' τ', Runs next (s', τ') (XRel env h l (K s'))) (st : St W) :
    Runs (fun _ => afterBody next o1) st (XRel env h l (out.after K)) := by
  rcases hb with hr | ⟨_, s', τ', rfl, rfl⟩
  · cases hr with
    | @norm s' τ' => exact ⟨(hn s' τ').1, (hn s' τ').2⟩
    | @ret v s' τ' =>
        refine runs_is (Or.inr ⟨?_, ?_⟩)
        · intro v' s2 h'
          have e : h = env.ret := by injection h' with e; exact e.symm
          exact hh (e ▸ he.ret)
        · exact Rel.ret
    | @goto x g v s' τ' hne hf =>
        have hf : (if some h = some x then some (Lab.ll l) else find env.blocks x) = some g := hf
        by_cases hx : some h = some x
        · rw [if_pos hx] at hf; cases hf; cases hx
          exact runs_is (Or.inl ⟨v, s', τ', rfl, Or.inr rfl⟩)
        · rw [if_neg hx] at hf
          refine runs_is (Or.inr ⟨?_, Rel.goto hne hf⟩)
          intro v' s2 h'; cases h'; exact hx rfl
    | @brk x s' τ' hne hb =>
        cases hb
        exact runs_is (Or.inl ⟨none, s', τ', rfl, Or.inl rfl⟩)
    | cont hne hc => cases hc
    | hang => exact runs_is (Or.inr ⟨(by intro v s h; cases h), .hang⟩)
    | timeout => exact runs_is (Or.inr ⟨(by intro v s h; cases h), .timeout⟩)
  · exact ⟨(hn s' τ').1, (hn s' τ').2⟩

theorem xrel_norm {env : Env} {h l : Nat} {s : W.σ} {τ : Nat → CVal} : XRel env h l (.norm s) (.norm (s, τ)) :=
  Or.inr ⟨(by intro v s h; cases h), .norm⟩

theorem xrel_hang {env : Env} {h l : Nat} : XRel (W := W) env h l .hang .hang :=
  Or.inr ⟨(by intro v s h; cases h), .hang⟩

theorem xrel_timeout {env : Env} {h l : Nat} : XRel (W := W) env h l .timeout .timeout :=
  Or.inr ⟨(by intro v s h; cases h), .timeout⟩

/-- The text of a condition, of the steps. -/
def condT (cond : Option N) (k : Nat) : Option (List Sym) := cond.map fun c => text (cg { parens := true } c k).1
def postT (post : List N) (k : Nat) : Option (List Sym) := if post.isEmpty then none else some (text (comma (texts {} post k)))
def initT (init : Option N) (k : Nat) : Option (List Sym) := init.map fun c => text (cg { stmt := true } c k).1

theorem runs_test {env : Env} {h l : Nat} {cond : Option N} (hc : ∀ e ∈ cond, okC W e) (k : Nat) {kk : Bool → Act W} {K : W.σ → Out W.σ}
    (h1 : ∀ s' τ', Runs (kk true) (s', τ') (XRel env h l (K s')))
    (h2 : ∀ s' τ', Runs (kk false) (s', τ') (XRel env h l (.norm s'))) (s : W.σ) (τ : Nat → CVal) :
    Runs (onTest (condT cond k) kk) (s, τ) (XRel env h l (StmtRun.guard W cond K s)) := by
  cases cond with
  | none => exact h1 s τ
  | some c =>
      have hv := runs_val (ev_cond (hc c rfl) { parens := true } k) (k := fun v => kk (ctruth W v))
        (K := fun v s' => if v then K s' else .norm s') (R := XRel env h l) xrel_hang s τ (fun x s' _ v τ' hv => by
          cases x with
          | true => rw [hv]; exact h1 s' τ'
          | false => rw [hv]; exact h2 s' τ')
      rw [andThen_map] at hv
      exact hv

theorem runs_post {env : Env} {h l : Nat} {post : List N} (hp : ∀ e ∈ post, okX W e) (k : Nat) {next : Act W} {K : W.σ → Out W.σ}
    (h1 : ∀ s' τ', Runs next (s', τ') (XRel env h l (K s'))) (s : W.σ) (τ : Nat → CVal) :
    Runs (onStep (postT post k) next) (s, τ) (XRel env h l (steps W post K s)) := by
  cases post with
  | nil => exact h1 s τ
  | cons e post =>
      rw [steps_run]
      exact runs_val (ev_steps (by simp) hp k) (k := fun _ => next) (K := fun _ s' => K s') (R := XRel env h l) xrel_hang s τ
        (fun x s' _ v τ' _ => h1 s' τ')

/-- `for` and `while` -/
theorem for_runs {env : Env} {hs : List Nat} {l h : Nat} (he : EnvOK env hs l) (hh : h ∉ hs) {N : Nat} {body : S} {c : CS}
    (hb : ∀ s0 τ, Runs (does W rt N c) (s0, τ) (BRel true (loopEnv env h l) (exec W N body s0)))
    {cond : Option CgExpr.N} (hc : ∀ e ∈ cond, okC W e) {post : List CgExpr.N} (hp : ∀ e ∈ post, okX W e) (k1 k2 : Nat) :
    ∀ m s τ, Runs (forN (condT cond k1) (postT post k2) (does W rt N c) m) (s, τ)
      (XRel env h l (StmtRun.guard W cond (turns W (exec W N body) post none cond m) s))
  | 0, s, τ => by
      rw [forN]
      refine runs_test hc k1 (fun s' τ' => ?_) (fun s' τ' => ?_) s τ
      · exact ⟨⟨.timeout, rfl⟩, fun o ho => by cases ho; exact xrel_timeout⟩
      · exact ⟨⟨_, rfl⟩, fun o ho => by cases ho; exact xrel_norm⟩
  | m + 1, s, τ => by
      rw [forN]
      refine runs_test hc k1 (fun s' τ' => ?_) (fun s' τ' => ?_) s τ
      · rw [turns]
        have hnext := fun s2 τ2 => runs_post (h := h) (l := l) hp k2 (for_runs he hh hb hc hp k1 k2 m) s2 τ2
        constructor
        · obtain ⟨o1, ho1⟩ := (hb s' τ').1
          obtain ⟨o, ho⟩ := (after_body he hh ((hb s' τ').2 o1 ho1) hnext (s', τ')).1
          exact ⟨o, by simp only [if_true]; exact ⟨o1, ho1, ho⟩⟩
        · intro o ho
          simp only [if_true] at ho
          obtain ⟨o1, ho1, ho⟩ := ho
          exact (after_body he hh ((hb s' τ').2 o1 ho1) hnext (s', τ')).2 o ho
      · exact ⟨⟨.norm (s', τ'), by simp⟩, fun o ho => by simp at ho; cases ho; exact xrel_norm⟩

/-- `do … while` -/
theorem do_runs {env : Env} {hs : List Nat} {l h : Nat} (he : EnvOK env hs l) (hh : h ∉ hs) {N : Nat} {body : S} {c : CS}
    (hb : ∀ s0 τ, Runs (does W rt N c) (s0, τ) (BRel true (loopEnv env h l) (exec W N body s0)))
    {pc : CgExpr.N} (hc : okC W pc) {post : List CgExpr.N} (hp : ∀ e ∈ post, okX W e) (k1 k2 : Nat) :
    ∀ m s τ, Runs (doN (does W rt N c) (stepCond post k1 (cg {} pc k2).1) m) (s, τ)
      (XRel env h l (turns W (exec W N body) post (some pc) none m s))
  | 0, s, τ => by
      rw [doN, turns]
      exact ⟨⟨.timeout, rfl⟩, fun o ho => by cases ho; exact xrel_timeout⟩
  | m + 1, s, τ => by
      rw [doN, turns]
      have hnext : ∀ s2 τ2, Runs (onVal (stepCond post k1 (cg {} pc k2).1) fun v st2 o =>
            if ctruth W v then doN (does W rt N c) (stepCond post k1 (cg {} pc k2).1) m st2 o else o = .norm st2) (s2, τ2)
          (XRel env h l (steps W post (StmtRun.guard W (some pc) (StmtRun.guard W none (turns W (exec W N body) post (some pc) none m))) s2)) := by
        intro s2 τ2
        have hv := runs_val (ev_stepCond hp hc k1 k2)
          (k := fun v st2 o => if ctruth W v then doN (does W rt N c) (stepCond post k1 (cg {} pc k2).1) m st2 o else o = .norm st2)
          (K := fun v s' => if v then turns W (exec W N body) post (some pc) none m s' else .norm s')
          (R := XRel env h l) xrel_hang s2 τ2 (fun x s' _ v τ' hv => by
            cases x with
            | true => simp only [hv, if_true]; exact do_runs he hh hb hc hp k1 k2 m s' τ'
            | false =>
                simp only [hv, Bool.false_eq_true, if_false]
                exact ⟨⟨_, rfl⟩, fun o ho => by cases ho; exact xrel_norm⟩)
        rw [steps_run]
        refine Eq.mp ?_ hv
        congr 2
        cases runAll W post s2 with
        | none => rfl
        | some x =>
            show andThen ((CgMean.run W pc x.2).map _) _ = StmtRun.guard W (some pc) _ x.2
            rw [StmtRun.guard]
            cases CgMean.run W pc x.2 with
            | none => rfl
            | some y => cases hy : truth W y.1 <;> simp [andThen, hy, StmtRun.guard]
      constructor
      · obtain ⟨o1, ho1⟩ := (hb s τ).1
        obtain ⟨o, ho⟩ := (after_body he hh ((hb s τ).2 o1 ho1) hnext (s, τ)).1
        exact ⟨o, o1, ho1, ho⟩
      · rintro o ⟨o1, ho1, ho⟩
        exact (after_body he hh ((hb s τ).2 o1 ho1) hnext (s, τ)).2 o ho

/-- after the label -/
theorem label_rel {env : Env} {hs : List Nat} {l h : Nat} (he : EnvOK env hs l) {n : Nat} {c : CS} {st : St W} {out : Out W.σ}
    (hr : Runs (does W rt n c) st (XRel env h l out)) :
    Runs (doesL W rt n (c :: (Tail.lab (.ll l)).cs) none) st (Rel env (caught (some h) out)) := by
  refine runs_cons hr fun o1 _ hx => ?_
  have hmiss : ∀ (o1 o : CO W), (∀ st, o1 ≠ .goto (.ll l) st) → (thenL rt n (Tail.lab (.ll l)).cs o1 o ↔ o = o1) := by
    intro o1 o hne
    cases o1 with
    | norm st =>
        show doesL W rt n [.lab (.ll l) .skip] none st o ↔ _
        rw [doesL_one, does, does]
    | goto g st =>
        refine seek_miss ?_
        intro c hc
        rw [Tail.cs, List.mem_singleton] at hc; subst hc
        intro he'
        cases he'
        exact hne st rfl
    | _ => simp [thenL]
  rcases hx with ⟨v, s, τ, rfl, rfl | rfl⟩ | ⟨hne, hrel⟩
  · simp only [caught, if_true]
    have := fun o => hmiss (.norm (s, τ)) o (by simp)
    exact ⟨⟨_, (this _).2 rfl⟩, fun o ho => by rw [(this o).1 ho]; exact .norm⟩
  · simp only [caught, if_true]
    have : ∀ o : CO W, thenL rt n (Tail.lab (.ll l)).cs (.goto (.ll l) (s, τ)) o ↔ o = .norm (s, τ) := by
      intro o
      show doesL W rt n [.lab (.ll l) .skip] (some (.ll l)) (s, τ) o ↔ _
      rw [doesL_cons (by simp [CS.label])]
      constructor
      · rintro ⟨o2, h5, h6⟩
        rw [thenL_nil] at h6; subst h6
        rw [does, does] at h5; exact h5
      · rintro rfl
        exact ⟨_, by rw [does, does], thenL_nil.2 rfl⟩
    exact ⟨⟨_, (this _).2 rfl⟩, fun o ho => by rw [(this o).1 ho]; exact .norm⟩
  · have hca : caught (some h) out = out := by
      cases out with
      | leave h' v s =>
          simp only [caught]
          rw [if_neg]
          rintro hx; cases hx; exact hne _ _ rfl
      | _ => rfl
    rw [hca]
    have hng : ∀ st, o1 ≠ .goto (.ll l) st := by
      rintro st rfl
      cases hrel with
      | goto _ hf => have := he.find_lt hf; simp only [Lab.num] at this; omega
    have := fun o => hmiss o1 o hng
    exact ⟨⟨_, (this _).2 rfl⟩, fun o ho => by rw [(this o).1 ho]; exact hrel⟩

/-- without a label: nothing jumps to it -/
theorem nolabel_rel {env : Env} {l h : Nat} {n : Nat} {c : CS} {st : St W} {out : Out W.σ}
    (hg : Lab.ll l ∉ gotos c) (hr : Runs (does W rt n c) st (XRel env h l out)) :
    Runs (does W rt n c) st (Rel env (caught (some h) out)) := by
  refine hr.mono fun o ho hx => ?_
  rcases hx with ⟨v, s, τ, rfl, rfl | rfl⟩ | ⟨hne, hrel⟩
  · simp only [caught, if_true]; exact .norm
  · exact absurd (does_goto rt n c _ _ _ ho) hg
  · have hca : caught (some h) out = out := by
      cases out with
      | leave h' v s =>
          simp only [caught]
          rw [if_neg]
          rintro hx; cases hx; exact hne _ _ rfl
      | _ => rfl
    rw [hca]; exact hrel

/-- The text of a loop but for its label, read. -/
theorem loop_good {env : Env} {hs : List Nat} {l h : Nat} (he : EnvOK env hs l) {init cond : Option N} {body : S} {post : List N}
    {pcond : Option N} {t hdr : List Tk} {C : CS → CS}
    (hread : ∀ ts c rest, One (ts ++ rest) c rest → One (hdr ++ ts ++ rest) (C c) rest)
    (hC : ∀ c, (C c).label = none) (hgot : ∀ c, gotos (C c) = gotos c)
    (hsem : ∀ c, (∀ n s0 τ, Runs (does W rt n c) (s0, τ) (BRel true (loopEnv env h l) (exec W n body s0))) →
      ∀ n s0 τ, ∃ out, exec W n (.loop h init cond body post pcond) s0 = caught (some h) out ∧
        Runs (does W rt n (C c)) (s0, τ) (XRel env h l out))
    (hne : hdr ≠ []) (hlast : hdr.getLast? = some .rp)
    (hb : SubOK W rt (loopEnv env h l) true body t) (hfar : Tk.goto (.ll l) ∈ t → far h false body = true) :
    ∃ c tl, Good W rt env (.loop h init cond body post pcond) l
      (hdr ++ t ++ (if t.contains (.goto (.ll l)) then [Tk.label (.ll l), .semi] else [])) c tl := by
  rcases hb with ⟨rfl, hsil⟩ | ⟨c, h1, h2, h3⟩
  · have hbody : ∀ n s0 τ, Runs (does W rt n .skip) (s0, τ) (BRel true (loopEnv env h l) (exec W n body s0)) := by
      intro n s0 τ
      rw [does, exec_silent hsil]
      exact ⟨⟨_, rfl⟩, fun o ho => by cases ho; exact Or.inl .norm⟩
    refine ⟨C .skip, .no, by simpa using hne, fun rest _ => ?_, fun n s0 τ => runs_one.2 ?_, hC _, by simp, by simp⟩
    · simp only [List.contains_nil, Bool.false_eq_true, if_false, List.append_nil]
      rw [term_not hne (by rw [hlast]; simp)]
      exact hread [.semi] .skip rest .skip
    · obtain ⟨out, e, hr⟩ := hsem .skip hbody n s0 τ
      rw [e]
      exact nolabel_rel (by rw [hgot]; simp [gotos]) hr
  · have htne : t ≠ [] := by rintro rfl; rcases h3 with h3 | h3 <;> simp at h3
    obtain ⟨p, hp1, hp2⟩ := (h1 []).text
    simp only [List.append_nil] at hp1
    rw [← hp1] at hp2
    by_cases hg : t.contains (.goto (.ll l)) = true
    · rw [if_pos hg]
      simp only [List.contains_eq_mem, decide_eq_true_eq] at hg
      refine ⟨C c, .lab (.ll l), by simp, fun rest _ => ?_, fun n s0 τ => ?_, hC _, fun g hgg => ?_, by simp⟩
      · rw [term_semi (last_snoc rfl)]
        have e : hdr ++ t ++ [Tk.label (.ll l), .semi] ++ rest = hdr ++ t ++ ((Tail.lab (.ll l)).toks ++ rest) := by simp [Tail.toks]
        rw [e]
        exact hread t c _ (h1 _)
      · obtain ⟨out, e, hr⟩ := hsem c h2 n s0 τ
        rw [e]
        exact label_rel he hr
      · cases hgg
        exact ⟨rfl, _, _, _, _, _, _, rfl, hfar hg⟩
    · rw [if_neg hg, List.append_nil]
      simp only [List.contains_eq_mem, decide_eq_true_eq] at hg
      have hgc : Lab.ll l ∉ gotos (C c) := by rw [hgot]; exact fun hm => hg ((hp2 _).2 hm)
      rcases h3 with h3 | ⟨h3, h4⟩
      · refine ⟨C c, .no, by simp [htne], fun rest _ => ?_, fun n s0 τ => runs_one.2 ?_, hC _, by simp, by simp⟩
        · rw [term_append htne, term_semi h3]
          exact hread t c _ (h1 _)
        · obtain ⟨out, e, hr⟩ := hsem c h2 n s0 τ
          rw [e]
          exact nolabel_rel hgc hr
      · refine ⟨C c, .semi, by simp [htne], fun rest _ => ?_, fun n s0 τ => runs_semi.2 ?_, hC _, by simp, by simp [h4]⟩
        · rw [term_append htne, term_not htne (by rw [h3]; simp)]
          have e : hdr ++ (t ++ [Tk.semi]) ++ rest = hdr ++ t ++ (Tail.semi.toks ++ rest) := by simp [Tail.toks]
          rw [e]
          exact hread t c _ (h1 _)
        · obtain ⟨out, e, hr⟩ := hsem c h2 n s0 τ
          rw [e]
          exact nolabel_rel hgc hr

theorem exO_cond (cond : Option N) (k : Nat) : exO { parens := true } cond k = toks1 (condT cond k) := by cases cond <;> rfl
theorem exO_init (init : Option N) (k : Nat) : exO { stmt := true } init k = toks1 (initT init k) := by cases init <;> rfl
theorem postO_eq (post : List N) (k : Nat) : postO post k = toks1 (postT post k) := by
  unfold postO postT; split <;> rfl

theorem name_ll {env : Env} {hs : List Nat} {l h x : Nat} (he : EnvOK env hs l) (hn : (loopEnv env h l).name x = .ll l) : x = h := by
  have hn : (env.push (.ll l) (some h)).name x = .ll l := hn
  rw [name_push] at hn
  by_cases hx : some h = some x
  · cases hx; rfl
  · rw [if_neg hx] at hn
    unfold Env.name at hn
    cases hf : find env.blocks x with
    | none => rw [hf] at hn; cases hn
    | some g =>
        rw [hf] at hn
        have := he.find_lt hf
        cases hn
        simp only [Lab.num] at this; omega

theorem loop_ok {h : Nat} {init cond : Option N} {body : S} {post : List N} {pcond : Option N}
    (H : ∀ x ∈ itemsOf body, Claim W odd rt x) : Claim W odd rt (.loop h init cond body post pcond) := by
  intro env hs l k he hok hn
  rw [ok] at hok
  obtain ⟨hh, hi, hc, hp, hpc, hsub, hb, hdo⟩ := hok
  rw [noEnter] at hn
  rw [line]
  dsimp only
  have he' := loopEnv_ok (h := h) he
  have hb' : SubOK W rt (loopEnv env h l) true body
      (sub odd (loopEnv env h l) true body (l + 1) (loopNext init cond post pcond k)).t := sub_ok odd he' true hb hn hsub H
  have hfar : Tk.goto (.ll l) ∈ (sub odd (loopEnv env h l) true body (l + 1) (loopNext init cond post pcond k)).t →
      far h false body = true := by
    intro hg
    obtain ⟨x, h1, h2⟩ := sub_far odd (fun y _ => goto_far odd _ y (Nat.lt_succ_self _)) _ _ _ _ _ hg (Nat.lt_succ_self l)
    cases name_ll he h1
    simpa [loopEnv] using h2
  show LineOK W rt env _ l (loopText l init cond post pcond k (sub odd (loopEnv env h l) true body (l + 1) (loopNext init cond post pcond k)).t)
  generalize (sub odd (loopEnv env h l) true body (l + 1) (loopNext init cond post pcond k)).t = t at hb' hfar ⊢
  right
  unfold loopText
  dsimp only
  cases pcond with
  | some pc =>
      obtain ⟨rfl, rfl, hf, hsil⟩ := hdo rfl
      have hg : t.contains (.goto (.ll l)) = false := by
        cases hcg : t.contains (.goto (.ll l)) with
        | false => rfl
        | true =>
            simp only [List.contains_eq_mem, decide_eq_true_eq] at hcg
            rw [hfar hcg] at hf; cases hf
      simp only [hg, Bool.false_eq_true, if_false, List.append_nil]
      rcases hb' with ⟨_, hs'⟩ | ⟨c, h1, h2, h3⟩
      · rw [hs'] at hsil; cases hsil
      refine ⟨.dow c (stepCond post (nextO { parens := true } none (nextO { stmt := true } none k))
        (cg {} pc (nexts {} post (nextO { parens := true } none (nextO { stmt := true } none k)))).1), .no, by simp, fun rest _ => ?_, fun n s0 τ => runs_one.2 ?_, rfl, by simp, by simp⟩
      · rw [term_not (by simp) (by rw [last_snoc (x := .rp) rfl]; simp)]
        have e : [Tk.kdo] ++ t ++ [.kwhile, .lp, .x (stepCond post (nextO { parens := true } none (nextO { stmt := true } none k))
              (cg {} pc (nexts {} post (nextO { parens := true } none (nextO { stmt := true } none k)))).1), .rp] ++ [.semi] ++ rest =
            .kdo :: (t ++ (.kwhile :: .lp :: .x (stepCond post (nextO { parens := true } none (nextO { stmt := true } none k))
              (cg {} pc (nexts {} post (nextO { parens := true } none (nextO { stmt := true } none k)))).1) :: .rp :: .semi :: rest)) := by
          simp
        rw [e]
        exact .dow (h1 _)
      · rw [exec]
        simp only [Option.toList_none, steps, StmtRun.guard]
        have hr := do_runs (rt := rt) he hh (fun s0 τ => h2 n s0 τ) (hpc pc rfl) hp
          (nextO { parens := true } none (nextO { stmt := true } none k))
          (nexts {} post (nextO { parens := true } none (nextO { stmt := true } none k))) n s0 τ
        refine nolabel_rel ?_ (by rw [does]; exact hr)
        rw [gotos]
        intro hm
        obtain ⟨p, hp1, hp2⟩ := (h1 []).text
        simp only [List.append_nil] at hp1
        rw [← hp1] at hp2
        have := (hp2 _).2 hm
        simp [List.contains_eq_mem, this] at hg
  | none =>
      simp only []
      by_cases hfor : (init.isSome || !post.isEmpty || !cond.isSome) = true
      · rw [if_pos hfor]
        refine loop_good (C := CS.for_ (initT init k) (condT cond (nextO { stmt := true } init k))
            (postT post (nextO { parens := true } cond (nextO { stmt := true } init k)))) he
          (fun ts c rest ho => ?_) (fun _ => rfl) (fun _ => by rw [gotos]) (fun c hbody n s0 τ => ?_) (by simp)
          (by rw [last_snoc (x := .rp) rfl]) hb' hfar
        · have e : [Tk.kfor, .lp] ++ exO { stmt := true } init k ++ [.semi] ++ exO { parens := true } cond (nextO { stmt := true } init k) ++
                [.semi] ++ postO post (nextO { parens := true } cond (nextO { stmt := true } init k)) ++ [.rp] ++ ts ++ rest =
              .kfor :: .lp :: (toks1 (initT init k) ++ .semi :: (toks1 (condT cond (nextO { stmt := true } init k)) ++ .semi ::
                (toks1 (postT post (nextO { parens := true } cond (nextO { stmt := true } init k))) ++ .rp :: (ts ++ rest)))) := by
            rw [exO_init, exO_cond, postO_eq]; simp
          rw [e]
          exact .for_ ho
        · refine ⟨_, by rw [exec], ?_⟩
          rw [does]
          have hr := for_runs (rt := rt) he hh (fun s0 τ => hbody n s0 τ) hc hp (nextO { stmt := true } init k)
            (nextO { parens := true } cond (nextO { stmt := true } init k)) n
          cases init with
          | none => exact hr s0 τ
          | some e =>
              rw [steps_run]
              have hv := runs_val (ev_stmt (hi e rfl).1 { stmt := true } k)
                (k := fun _ => forN (condT cond (nextO { stmt := true } (some e) k))
                  (postT post (nextO { parens := true } cond (nextO { stmt := true } (some e) k))) (does W rt n c) n)
                (K := fun _ s' => StmtRun.guard W cond (turns W (exec W n body) post none cond n) s')
                (R := XRel env h l) xrel_hang s0 τ (fun x s' _ v τ' _ => hr s' τ')
              refine Eq.mp ?_ hv
              congr 2
              simp only [Option.toList_some, runAll]
              cases CgMean.run W e s0 <;> rfl
      · rw [if_neg hfor]
        simp only [Bool.or_eq_true, Bool.not_eq_true', not_or, Bool.not_eq_true, Bool.not_eq_false] at hfor
        obtain ⟨⟨hi0, hp0⟩, hc0⟩ := hfor
        cases init with
        | some e => cases hi0
        | none =>
            cases cond with
            | none => cases hc0
            | some cn =>
                cases post with
                | cons e post => simp at hp0
                | nil =>
                    refine loop_good (C := CS.wh (text (cg { parens := true } cn k).1)) he
                      (fun ts c rest ho => ?_) (fun _ => rfl) (fun _ => by rw [gotos]) (fun c hbody n s0 τ => ?_) (by simp [exO])
                      (by rw [last_snoc (x := .rp) rfl]) hb' hfar
                    · exact .wh ho
                    · refine ⟨_, by rw [exec], ?_⟩
                      rw [does]
                      exact for_runs (rt := rt) he hh (fun s0 τ => hbody n s0 τ) hc hp k k n s0 τ

/-! ## All of them -/

/-- **The text of a statement does what the statement does.** -/
theorem claim : ∀ (N : Nat) (s : S), sizeOf s < N → Claim W odd rt s := by
  intro N
  induction N with
  | zero => intro s h; omega
  | succ N ih =>
      intro s hN
      have hI : ∀ a : S, sizeOf a < N → ∀ x ∈ itemsOf a, Claim W odd rt x := fun a ha x hx =>
        ih x (by have := items_size hx; omega)
      cases s with
      | expr e => exact expr_ok odd
      | empty => exact empty_ok odd
      | jump h e => exact jump_ok odd
      | enter h init cond hp pre body post pcond => intro env hs l k he hok hn; rw [noEnter] at hn; cases hn
      | ite c a b =>
          simp only [S.ite.sizeOf_spec] at hN
          exact ite_ok odd (hI a (by omega)) (hI b (by omega)) (ih b (by omega))
      | and cs b => simp only [S.and.sizeOf_spec] at hN; exact and_ok odd (hI b (by omega))
      | or cs b => simp only [S.or.sizeOf_spec] at hN; exact or_ok odd (hI b (by omega))
      | block h items =>
          simp only [S.block.sizeOf_spec] at hN
          exact block_ok odd (fun x hx => ih x (by have := List.sizeOf_lt_of_mem hx; omega))
      | loop h init cond body post pcond => simp only [S.loop.sizeOf_spec] at hN; exact loop_ok odd (hI body (by omega))

end Verif.StmtSim
