import Verif.StmtText

/-!
# C93: the text of each statement does what the statement does

One lemma for each kind of statement.
-/

namespace Verif.StmtSim

open Verif.CgText Verif.CgExpr Verif.CgStmt Verif.CppGram Verif.CgMean Verif.CppStmt Verif.StmtRun Verif.StmtEval
  Verif.StmtRel Verif.StmtText

variable {W : World} (odd : List Sym → Bool) (rt : Ty)

/-- What follows the statement on its line: nothing, an empty statement, a label. -/
inductive Tail where
  | no
  | semi
  | lab (g : Lab)

def Tail.toks : Tail → List Tk
  | .no => []
  | .semi => [.semi]
  | .lab g => [.label g, .semi]

def Tail.cs : Tail → List CS
  | .no => []
  | .semi => [.skip]
  | .lab g => [.lab g .skip]

variable (W) in
/-- The line is a statement that does the same. -/
structure Good (env : Env) (s : S) (l : Nat) (t : List Tk) (c : CS) (tl : Tail) : Prop where
  ne : t ≠ []
  reads : ∀ rest, (Tk.kif ∈ t → rest.head? ≠ some .kelse) → One (term t ++ rest) c (tl.toks ++ rest)
  sem : ∀ n s0 τ, Runs (doesL W rt n (c :: tl.cs) none) (s0, τ) (Rel env (exec W n s s0))
  plain : c.label = none
  lab : ∀ g, tl = .lab g → g = .ll l ∧ ∃ h i cn b p q, s = .loop h i cn b p q ∧ far h false b = true
  semi : tl = .semi → Tk.lbr ∈ t

variable (W) in
def LineOK (env : Env) (s : S) (l : Nat) (t : List Tk) : Prop :=
  (t = [] ∧ s = .empty) ∨ ∃ c tl, Good W rt env s l t c tl

variable (W) in
def LinesOK (env : Env) (items : List S) (l : Nat) (t : List Tk) : Prop :=
  ∃ cl, (∀ rest, rest.head? ≠ some Tk.kelse → Many (t ++ rest) cl rest ∧ (t ++ rest).head? ≠ some .kelse) ∧
    (∀ c ∈ cl, ∀ g, c.label = some g → l ≤ g.num) ∧
    ∀ n s0 τ, Runs (doesL W rt n cl none) (s0, τ) (Rel env (execL W n items s0))

/-- After a branch (or a body, `lb`). -/
def BRel (lb : Bool) (env : Env) (out : Out W.σ) (o : CO W) : Prop :=
  Rel env out o ∨ (lb = true ∧ ∃ s τ, out = .norm s ∧ o = .cont (s, τ))

variable (W) in
def SubOK (env : Env) (lb : Bool) (s : S) (t : List Tk) : Prop :=
  (t = [] ∧ silent s = true) ∨ ∃ c, (∀ rest, One (t ++ rest) c rest) ∧
    (∀ n s0 τ, Runs (does W rt n c) (s0, τ) (BRel lb env (exec W n s s0))) ∧
    (t.getLast? = some .semi ∨ (t.getLast? = some .rbr ∧ Tk.lbr ∈ t))

/-! ## One statement and an empty one -/

variable {rt}

theorem doesL_one {n} {c : CS} {st : St W} {o : CO W} : doesL W rt n [c] none st o ↔ does W rt n c st o := by
  rw [doesL_cons (by simp)]
  constructor
  · rintro ⟨o1, h1, h2⟩; rw [thenL_nil] at h2; subst h2; exact h1
  · intro h; exact ⟨o, h, thenL_nil.2 rfl⟩

theorem doesL_semi {n} {c : CS} {st : St W} {o : CO W} : doesL W rt n [c, .skip] none st o ↔ does W rt n c st o := by
  rw [doesL_cons (by simp)]
  have key : ∀ o1 : CO W, thenL rt n [.skip] o1 o ↔ o = o1 := by
    intro o1
    cases o1 with
    | norm st =>
        simp only [thenL]
        rw [doesL_one, does]
    | goto g st =>
        simp only [thenL]
        exact seek_miss (by intro c hc; rw [List.mem_singleton] at hc; subst hc; simp [CS.label])
    | _ => simp [thenL]
  constructor
  · rintro ⟨o1, h1, h2⟩; rw [key] at h2; subst h2; exact h1
  · intro h; exact ⟨o, h, (key o).2 rfl⟩

theorem runs_one {n} {c : CS} {st : St W} {Q : CO W → Prop} : Runs (doesL W rt n [c] none) st Q ↔ Runs (does W rt n c) st Q := by
  unfold Runs; simp only [doesL_one]

theorem runs_semi {n} {c : CS} {st : St W} {Q : CO W → Prop} : Runs (doesL W rt n [c, .skip] none) st Q ↔ Runs (does W rt n c) st Q := by
  unfold Runs; simp only [doesL_semi]

/-- nothing or an empty statement -/
def tailOf (b : Bool) : Tail := if b then .semi else .no

theorem runs_tail {n} {c : CS} {st : St W} {Q : CO W → Prop} (b : Bool) :
    Runs (doesL W rt n (c :: (tailOf b).cs) none) st Q ↔ Runs (does W rt n c) st Q := by
  cases b
  · exact runs_one
  · exact runs_semi

/-! ## Lines -/

theorem many_decls (d : Nat) {ts l r} (h : Many ts l r) :
    Many ((List.replicate d [Tk.decl, .semi]).flatten ++ ts) (List.replicate d .skip ++ l) r := by
  induction d with
  | zero => exact h
  | succ d ih =>
      simp only [List.replicate_succ, List.flatten_cons, List.cons_append, List.nil_append]
      exact .cons .decl ih

theorem head_decls (d : Nat) {ts : List Tk} (h : ts.head? ≠ some .kelse) :
    ((List.replicate d [Tk.decl, .semi]).flatten ++ ts).head? ≠ some .kelse := by
  cases d with
  | zero => exact h
  | succ d => simp [List.replicate_succ]

theorem one_head {ts c r} (h : One ts c r) : ts.head? ≠ some .kelse := by
  cases h <;> simp

theorem many_tail (tl : Tail) (rest : List Tk) : Many (tl.toks ++ rest) tl.cs rest := by
  cases tl with
  | no => exact .nil
  | semi => exact .cons .skip .nil
  | lab g => exact .cons (.lab .skip) .nil

theorem lines_ok {env : Env} {hs : List Nat} : ∀ {items : List S},
    (∀ s ∈ items, ∀ l k, EnvOK env hs l → LineOK W rt env s l (line odd env s l k).t) →
    ∀ l k, EnvOK env hs l → LinesOK W rt env items l (lines odd env items l k).t
  | [], _, l, k, he => by
      rw [lines]
      refine ⟨[], fun rest hr => ⟨.nil, hr⟩, by simp, fun n s0 τ => ?_⟩
      rw [doesL, execL]
      exact ⟨⟨_, rfl⟩, fun o ho => by cases ho; exact .norm⟩
  | s :: r, h, l, k, he => by
      have hm := line_mono odd _ s (Nat.lt_succ_self _) env l k
      obtain ⟨clb, hb1, hb2, hb3⟩ := lines_ok (items := r) (fun x hx => h x (List.mem_cons_of_mem _ hx))
        (line odd env s l k).l (line odd env s l k).k (he.mono hm)
      rw [lines]
      dsimp only
      have h0 := h s (List.mem_cons_self ..) l k he
      generalize (line odd env s l k).d = d
      generalize (line odd env s l k).t = t at h0 ⊢
      generalize (lines odd env r (line odd env s l k).l (line odd env s l k).k).t = tb at hb1 ⊢
      rcases h0 with ⟨rfl, rfl⟩ | ⟨c, tl, hg⟩
      · refine ⟨List.replicate d .skip ++ clb, fun rest hr => ?_, ?_, fun n s0 τ => ?_⟩
        · simp only [row, term, List.isEmpty_nil, if_true, List.append_nil, List.append_assoc]
          obtain ⟨m1, m2⟩ := hb1 rest hr
          exact ⟨many_decls d m1, head_decls d m2⟩
        · intro c hc g hgl
          rcases List.mem_append.1 hc with hc | hc
          · obtain ⟨_, rfl⟩ := List.mem_replicate.1 hc; cases hgl
          · exact Nat.le_trans hm (hb2 c hc g hgl)
        · unfold Runs
          simp only [doesL_skips]
          rw [execL, exec]
          exact hb3 n s0 τ
      · refine ⟨List.replicate d .skip ++ ((c :: tl.cs) ++ clb), fun rest hr => ?_, ?_, fun n s0 τ => ?_⟩
        · simp only [row, List.append_assoc]
          obtain ⟨m1, m2⟩ := hb1 rest hr
          have h1 := hg.reads (tb ++ rest) (fun _ => m2)
          exact ⟨many_decls d (.cons h1 ((many_tail tl _).append m1)), head_decls d (one_head h1)⟩
        · intro c' hc g hgl
          rcases List.mem_append.1 hc with hc | hc
          · obtain ⟨_, rfl⟩ := List.mem_replicate.1 hc; cases hgl
          · rcases List.mem_append.1 hc with hc | hc
            · rcases List.mem_cons.1 hc with rfl | hc
              · rw [hg.plain] at hgl; cases hgl
              · cases tl with
                | no => cases hc
                | semi => rw [Tail.cs, List.mem_singleton] at hc; subst hc; cases hgl
                | lab g' =>
                    rw [Tail.cs, List.mem_singleton] at hc; subst hc; cases hgl
                    rw [(hg.lab g rfl).1]
                    exact Nat.le_refl _
            · exact Nat.le_trans hm (hb2 c' hc g hgl)
        · have h1 : Runs (doesL W rt n ((c :: tl.cs) ++ clb) none) (s0, τ) (Rel env (execL W n (s :: r) s0)) := by
            refine runs_append (hg.sem n s0 τ) ?_
            intro o1 _ hr1
            rw [execL]
            generalize exec W n s s0 = out at hr1
            cases hr1 with
            | norm => exact ⟨(hb3 n _ _).1, (hb3 n _ _).2⟩
            | ret => exact runs_is .ret
            | @goto h' g v s1 τ1 hne hf =>
                have hx : ∀ o, thenL rt n clb (.goto g (s1, τ1)) o ↔ o = (CO.goto g (s1, τ1) : CO W) := fun o =>
                  seek_miss fun c hc he' => by
                    have h1 := hb2 c hc g he'
                    have h2 := he.find_lt hf
                    omega
                exact ⟨⟨_, (hx _).2 rfl⟩, fun o ho => by rw [(hx o).1 ho]; exact .goto hne hf⟩
            | brk hne hb => exact runs_is (.brk hne hb)
            | cont hne hb => exact runs_is (.cont hne hb)
            | hang => exact runs_is .hang
            | timeout => exact runs_is .timeout
          unfold Runs at h1 ⊢
          simp only [doesL_skips]
          exact h1

/-! ## Blocks -/

theorem exec_items (n : Nat) (s : S) (s0 : W.σ) : exec W n s s0 = caught (helper s) (execL W n (itemsOf s) s0) := by
  cases s with
  | block h items => rw [exec]; rfl
  | _ =>
      simp only [helper, itemsOf, execL]
      generalize exec W n _ s0 = o
      cases o <;> simp [Out.after, caught]

theorem only_items {s x : S} (h : itemsOf s = [x]) : only s = some x := by
  cases s with
  | block o items => cases (show items = [x] from h); rfl
  | _ => cases h; rfl

theorem envOf_ok {env : Env} {hs : List Nat} {l : Nat} (he : EnvOK env hs l) (lb : Bool) (s : S) :
    EnvOK (envOf env lb s l) ((helper s).toList ++ hs) (l + 1) := by
  have hp := he.push (.bl l) rfl (helper s)
  cases lb with
  | false => exact hp
  | true =>
      refine ⟨hp.lt, hp.has, hp.ret, hp.brk, fun x hx => ?_⟩
      have hx : helper s = some x := hx
      rw [hx]; exact List.mem_cons_self ..

/-- what leaves the statements of a branch or body -/
theorem catch_rel {env : Env} {hs : List Nat} {l : Nat} (he : EnvOK env hs l) {lb : Bool} {s : S} {out : Out W.σ} {o : CO W}
    (hf : ∀ h v s', out = .leave h v s' → helper s = some h → h ∉ hs)
    (hr : Rel (envOf env lb s l) out o) :
    (∃ s' τ, caught (helper s) out = .norm s' ∧ o = .goto (.bl l) (s', τ)) ∨
      ((∀ st, o ≠ .goto (.bl l) st) ∧ BRel lb env (caught (helper s) out) o) := by
  cases hr with
  | norm => exact Or.inr ⟨by simp, Or.inl .norm⟩
  | @ret v s' τ =>
      have hret : (envOf env lb s l).ret = env.ret := by cases lb <;> rfl
      refine Or.inr ⟨by simp, Or.inl ?_⟩
      rw [hret] at hf ⊢
      have hx : ¬ (helper s = some env.ret) := fun hx => hf _ _ _ rfl hx he.ret
      simp only [caught]
      rw [if_neg hx]
      exact .ret
  | @goto h g v s' τ hne hfi =>
      have hfi' : (if helper s = some h then some (.bl l) else find env.blocks h) = some g := by
        rw [← hfi]; cases lb <;> rfl
      by_cases hx : helper s = some h
      · rw [if_pos hx] at hfi'; cases hfi'
        refine Or.inl ⟨s', τ, ?_, rfl⟩
        simp only [caught]; rw [if_pos hx]
      · rw [if_neg hx] at hfi'
        refine Or.inr ⟨?_, Or.inl ?_⟩
        · intro st hst
          cases hst
          have := he.find_lt hfi'
          simp only [Lab.num] at this; omega
        · simp only [caught]; rw [if_neg hx]
          exact .goto (by cases lb <;> exact hne) hfi'
  | @brk h s' τ hne hb =>
      rw [envOf_brk] at hb
      have hx : ¬ (helper s = some h) := fun hx => hf _ _ _ rfl hx (he.brk h hb)
      refine Or.inr ⟨by simp, Or.inl ?_⟩
      simp only [caught]; rw [if_neg hx]
      exact .brk (by cases lb <;> exact hne) hb
  | @cont h s' τ hne hc =>
      refine Or.inr ⟨by simp, ?_⟩
      cases lb with
      | false =>
          have hx : ¬ (helper s = some h) := fun hx => hf _ _ _ rfl hx (he.cont h hc)
          simp only [caught]; rw [if_neg hx]
          exact Or.inl (.cont hne hc)
      | true =>
          have hx : helper s = some h := hc
          simp only [caught]; rw [if_pos hx]
          exact Or.inr ⟨rfl, _, _, rfl, rfl⟩
  | hang => exact Or.inr ⟨by simp, Or.inl .hang⟩
  | timeout => exact Or.inr ⟨by simp, Or.inl .timeout⟩

theorem last_snoc {a b : List Tk} {x : Tk} (h : b.getLast? = some x) : (a ++ b).getLast? = some x := by
  simp [List.getLast?_append, h]

/-- curlies -/
theorem braces_ok {env : Env} {hs : List Nat} {l k : Nat} (he : EnvOK env hs l) {lb opt : Bool} {s : S} {len : Nat}
    (hl : LinesOK W rt (envOf env lb s l) (itemsOf s) (l + 1) (lines odd (envOf env lb s l) (itemsOf s) (l + 1) k).t)
    (hf : fresh (helper s) hs (fun x => jumpsL x (itemsOf s)))
    (hb : Tk.lbr ∈ wrap odd opt len l (lines odd (envOf env lb s l) (itemsOf s) (l + 1) k)) :
    ∃ c, c.label = none ∧
      (∀ rest, One (wrap odd opt len l (lines odd (envOf env lb s l) (itemsOf s) (l + 1) k) ++ rest) c rest) ∧
      (∀ n s0 τ, Runs (does W rt n c) (s0, τ) (BRel lb env (exec W n s s0))) ∧
      (wrap odd opt len l (lines odd (envOf env lb s l) (itemsOf s) (l + 1) k)).getLast? = some .rbr := by
  obtain ⟨cl, h1, h2, h3⟩ := hl
  generalize lines odd (envOf env lb s l) (itemsOf s) (l + 1) k = r at *
  have hfr : ∀ n s0 h v s', execL W n (itemsOf s) s0 = .leave h v s' → helper s = some h → h ∉ hs := by
    intro n s0 h v s' ho hh hm
    rcases hf h hh with h4 | h4
    · exact h4 hm
    · have := leave_jumpsL W n _ _ _ _ _ ho
      simp only at h4
      rw [h4] at this; cases this
  unfold wrap at hb ⊢
  by_cases hc : (opt && len == 1 && r.n == 1 && !r.t.contains (.goto (.bl l)) && !curly odd r.t) = true
  · rw [if_pos hc] at hb
    simp only [Bool.and_eq_true, Bool.not_eq_true'] at hc
    exact absurd hb (curly_lbr odd hc.2).1
  · rw [if_neg hc]
    by_cases hg : r.t.contains (.goto (.bl l)) = true
    · rw [if_pos hg]
      refine ⟨.seq [.seq cl, .lab (.bl l) .skip], rfl, fun rest => ?_, fun n s0 τ => ?_, last_snoc rfl⟩
      · have e : [Tk.lbr, .lbr] ++ r.t ++ [.rbr, .label (.bl l), .semi, .rbr] ++ rest =
            .lbr :: .lbr :: (r.t ++ .rbr :: .label (.bl l) :: .semi :: .rbr :: rest) := by simp
        rw [e]
        exact .block (.cons (.block (h1 (.rbr :: .label (.bl l) :: .semi :: .rbr :: rest) (by simp)).1) (.cons (.lab .skip) .nil))
      · rw [does]
        refine runs_cons (Q := Rel (envOf env lb s l) (execL W n (itemsOf s) s0)) (by rw [does]; exact h3 n s0 τ) ?_
        intro o1 _ hr1
        rw [exec_items]
        rcases catch_rel he (hfr n s0) hr1 with ⟨s', τ', e1, rfl⟩ | ⟨hne, hbr⟩
        · rw [e1]
          have : ∀ o : CO W, thenL rt n [.lab (.bl l) .skip] (.goto (.bl l) (s', τ')) o ↔ o = .norm (s', τ') := by
            intro o
            show doesL W rt n [.lab (.bl l) .skip] (some (.bl l)) (s', τ') o ↔ _
            rw [doesL_cons (by simp [CS.label])]
            constructor
            · rintro ⟨o2, h5, h6⟩
              rw [thenL_nil] at h6; subst h6
              rw [does, does] at h5; exact h5
            · rintro rfl
              exact ⟨_, by rw [does, does], thenL_nil.2 rfl⟩
          exact ⟨⟨_, (this _).2 rfl⟩, fun o ho => by rw [(this o).1 ho]; exact Or.inl .norm⟩
        · have : ∀ o : CO W, thenL rt n [.lab (.bl l) .skip] o1 o ↔ o = o1 := by
            intro o
            cases o1 with
            | norm st =>
                show doesL W rt n [.lab (.bl l) .skip] none st o ↔ _
                rw [doesL_one, does, does]
            | goto g st =>
                refine seek_miss ?_
                intro c hc; rw [List.mem_singleton] at hc; subst hc
                intro he'
                cases he'
                exact hne st rfl
            | _ => simp [thenL]
          exact ⟨⟨_, (this _).2 rfl⟩, fun o ho => by rw [(this o).1 ho]; exact hbr⟩
    · rw [if_neg hg]
      refine ⟨.seq cl, rfl, fun rest => ?_, fun n s0 τ => ?_, last_snoc rfl⟩
      · have e : [Tk.lbr] ++ r.t ++ [.rbr] ++ rest = .lbr :: (r.t ++ .rbr :: rest) := by simp
        rw [e]
        exact .block (h1 (.rbr :: rest) (by simp)).1
      · rw [does]
        refine (h3 n s0 τ).mono fun o ho hr1 => ?_
        rw [exec_items]
        rcases catch_rel he (hfr n s0) hr1 with ⟨s', τ', e1, rfl⟩ | ⟨hne, hbr⟩
        · exfalso
          rcases doesL_goto rt n cl none _ _ _ ho with hgo | hgo
          · obtain ⟨p, hp1, hp2⟩ := (h1 [] (by simp)).1.text
            simp only [List.append_nil] at hp1
            rw [← hp1] at hp2
            apply hg
            simp only [List.contains_eq_mem, decide_eq_true_eq]
            exact (hp2 _).2 hgo
          · cases hgo
        · exact hbr

end Verif.StmtSim
